import Verif.Proofs.XmlText
import Verif.Spec.XmlDoc

/-!
# Texts in UTF-8, and character references
-/

set_option linter.unusedSimpArgs false
set_option linter.unusedVariables false

namespace Tinyfk

/-! ### UTF-8 -/

theorem Full.cons {c : Char} {l : List Char} (h : utf8Len c ≤ l.length + 1) (hl : Full l) : Full (c :: l) := by
  intro d ds hs
  rcases List.suffix_cons_iff.mp hs with e | hs
  · cases e; exact h
  · exact hl d ds hs

theorem byte_toNat (n : Nat) (h : n < 256) : (Char.ofNat (UInt8.ofNat n).toNat).toNat = n := by
  have e : (UInt8.ofNat n).toNat = n := by simp; omega
  rw [e]
  have hv : n.isValidChar := .inl (by omega)
  simp [Char.ofNat, hv, Char.toNat, Char.ofNatAux]

theorem utf8_char (c : Char) (l : List Char) (hl : Full l) :
    Full ((String.utf8EncodeChar c).map (fun b => Char.ofNat b.toNat) ++ l) := by
  have hc : c.val.toNat < 1114112 := by
    have := c.valid
    simp only [UInt32.isValidChar, Nat.isValidChar] at this
    omega
  have low : ∀ n, n < 0xc2 → ∀ l : List Char, utf8Len (Char.ofNat (UInt8.ofNat n).toNat) ≤ l.length + 1 := by
    intro n hn l
    unfold utf8Len
    rw [byte_toNat n (by omega), if_pos hn]
    omega
  have mid : ∀ n k, n < 256 → (n < 0xe0 ∧ k = 1 ∨ n < 0xf0 ∧ k = 2 ∨ k = 3) → ∀ l : List Char, k ≤ l.length →
      utf8Len (Char.ofNat (UInt8.ofNat n).toNat) ≤ l.length + 1 := by
    intro n k hn hk l hl
    unfold utf8Len
    rw [byte_toNat n hn]
    repeat' split
    all_goals omega
  unfold String.utf8EncodeChar
  dsimp only
  split
  · exact Full.cons (low _ (by omega) _) hl
  split
  · exact Full.cons (mid _ 1 (by omega) (.inl ⟨by omega, rfl⟩) (_ :: l) (by simp)) (Full.cons (low _ (by omega) _) hl)
  split
  · exact Full.cons (mid _ 2 (by omega) (.inr (.inl ⟨by omega, rfl⟩)) (_ :: _ :: l) (by simp))
      (Full.cons (low _ (by omega) _) (Full.cons (low _ (by omega) _) hl))
  · exact Full.cons (mid _ 3 (by omega) (.inr (.inr rfl)) (_ :: _ :: _ :: l) (by simp))
      (Full.cons (low _ (by omega) _) (Full.cons (low _ (by omega) _) (Full.cons (low _ (by omega) _) hl)))

theorem utf8_full (s : List Char) : Full (utf8 s) := by
  induction s with
  | nil => intro c cs h; simp [utf8] at h
  | cons c s ih =>
    unfold utf8 at ih ⊢
    rw [List.flatMap_cons]
    exact utf8_char c _ ih

theorem utf8_nul {c : Char} (h : c ≠ '\x00') :
    ∀ d ∈ (String.utf8EncodeChar c).map (fun b => Char.ofNat b.toNat), d ≠ '\x00' := by
  intro d hd
  obtain ⟨b, hb, rfl⟩ := List.mem_map.mp hd
  intro e
  have h0 : (Char.ofNat b.toNat).toNat = 0 := by rw [e]; rfl
  have hb0 : b.toNat = 0 := by
    have := byte_toNat b.toNat b.toNat_lt
    simpa [h0] using this.symm
  have hz : ∀ n, n < 256 → b = UInt8.ofNat n → n = 0 := by
    intro n hn e
    rw [e] at hb0
    simp at hb0
    omega
  have hc : c.val.toNat < 1114112 := by
    have := c.valid
    simp only [UInt32.isValidChar, Nat.isValidChar] at this
    omega
  have hcz : c.val.toNat ≠ 0 := by
    intro e
    apply h
    apply Char.ext
    exact UInt32.toNat_inj.mp (by rw [e]; rfl)
  unfold String.utf8EncodeChar at hb
  dsimp only at hb
  split at hb
  · simp only [List.mem_cons, List.not_mem_nil, or_false] at hb
    exact hcz (hz _ (by omega) hb)
  split at hb
  · simp only [List.mem_cons, List.not_mem_nil, or_false] at hb
    rcases hb with hb | hb <;> have := hz _ (by omega) hb <;> omega
  split at hb
  · simp only [List.mem_cons, List.not_mem_nil, or_false] at hb
    rcases hb with hb | hb | hb <;> have := hz _ (by omega) hb <;> omega
  · simp only [List.mem_cons, List.not_mem_nil, or_false] at hb
    rcases hb with hb | hb | hb | hb <;> have := hz _ (by omega) hb <;> omega

theorem utf8_takeWhile (s : List Char) : (utf8 s).takeWhile (· ≠ '\x00') = utf8 (s.takeWhile (· ≠ '\x00')) := by
  induction s with
  | nil => rfl
  | cons c s ih =>
    by_cases h : c = '\x00'
    · subst h
      simp [utf8, String.utf8EncodeChar]
    · rw [List.takeWhile_cons_of_pos (by simpa using h)]
      unfold utf8 at ih ⊢
      rw [List.flatMap_cons, List.flatMap_cons, List.takeWhile_append_of_pos, ih]
      intro d hd
      simpa using utf8_nul h d hd

theorem charOf_toNat (c : Char) : Char.ofNat c.toNat = c := by simp

theorem char_lt (c : Char) : c.toNat < 1114112 := by
  have := c.valid
  simp only [UInt32.isValidChar, Nat.isValidChar] at this
  show c.val.toNat < 1114112
  omega

theorem uint8_toNat {n : Nat} (h : n < 256) : (UInt8.ofNat n).toNat = n := by simp; omega

/-- `ConvertUTF32ToUTF8` is the UTF-8 encoding -/
theorem utf8_one (c : Char) : utf8 [c] = toUtf8 c.toNat := by
  have hc := char_lt c
  have hv : c.val.toNat = c.toNat := rfl
  unfold utf8 toUtf8 String.utf8EncodeChar
  simp only [List.flatMap_cons, List.flatMap_nil, List.append_nil, hv]
  by_cases h1 : c.toNat ≤ 0x7f
  · have g1 : c.toNat < 0x80 := by omega
    simp only [h1, g1, if_true, List.map_cons, List.map_nil]
    rw [uint8_toNat (by omega)]
  have g1 : ¬ c.toNat < 0x80 := by omega
  by_cases h2 : c.toNat ≤ 0x7ff
  · have g2 : c.toNat < 0x800 := by omega
    simp only [h1, g1, h2, g2, if_true, if_false, List.map_cons, List.map_nil]
    rw [uint8_toNat (by omega), uint8_toNat (by omega), show c.toNat / 64 % 32 + 192 = 192 + c.toNat / 64 by omega,
      show c.toNat % 64 + 128 = 128 + c.toNat % 64 by omega]
  have g2 : ¬ c.toNat < 0x800 := by omega
  by_cases h3 : c.toNat ≤ 0xffff
  · have g3 : c.toNat < 0x10000 := by omega
    simp only [h1, g1, h2, g2, h3, g3, if_true, if_false, List.map_cons, List.map_nil]
    rw [uint8_toNat (by omega), uint8_toNat (by omega), uint8_toNat (by omega),
      show c.toNat / 4096 % 16 + 224 = 224 + c.toNat / 4096 by omega,
      show c.toNat / 64 % 64 + 128 = 128 + c.toNat / 64 % 64 by omega, show c.toNat % 64 + 128 = 128 + c.toNat % 64 by omega]
  · have g3 : ¬ c.toNat < 0x10000 := by omega
    have g4 : c.toNat < 0x200000 := by omega
    simp only [h1, g1, h2, g2, h3, g3, g4, if_true, if_false, List.map_cons, List.map_nil]
    rw [uint8_toNat (by omega), uint8_toNat (by omega), uint8_toNat (by omega), uint8_toNat (by omega),
      show c.toNat / 262144 % 8 + 240 = 240 + c.toNat / 262144 by omega,
      show c.toNat / 4096 % 64 + 128 = 128 + c.toNat / 4096 % 64 by omega,
      show c.toNat / 64 % 64 + 128 = 128 + c.toNat / 64 % 64 by omega, show c.toNat % 64 + 128 = 128 + c.toNat % 64 by omega]

theorem byteOf_toNat {n : Nat} (h : n < 256) : (Char.ofNat n).toNat = n := by
  have hv : n.isValidChar := .inl (by omega)
  simp [Char.ofNat, hv, Char.toNat, Char.ofNatAux]

theorem utf8_ascii {c : Char} (h : c.toNat < 128) : utf8 [c] = [c] := by
  rw [utf8_one, toUtf8, if_pos h, charOf_toNat]

/-- a character is one ASCII byte, or a byte that announces the length and continuation bytes -/
theorem utf8_multi {c : Char} (h : 128 ≤ c.toNat) : ∃ b bs, utf8 [c] = b :: bs ∧ 0xc2 ≤ b.toNat ∧ bs ≠ [] ∧
    (∀ x ∈ bs, 0x80 ≤ x.toNat ∧ x.toNat < 0xc0) ∧ utf8Len b = bs.length + 1 := by
  have hc := char_lt c
  have hk : ∀ k, 0x80 ≤ (Char.ofNat (0x80 + k % 0x40)).toNat ∧ (Char.ofNat (0x80 + k % 0x40)).toNat < 0xc0 := by
    intro k
    rw [byteOf_toNat (by omega)]
    omega
  rw [utf8_one, toUtf8, if_neg (by omega)]
  split
  · refine ⟨_, _, rfl, ?_, by simp, ?_, ?_⟩
    · rw [byteOf_toNat (by omega)]; omega
    · simpa using hk _
    · unfold utf8Len
      rw [byteOf_toNat (by omega), if_neg (by omega), if_pos (by omega)]
      rfl
  split
  · refine ⟨_, _, rfl, ?_, by simp, ?_, ?_⟩
    · rw [byteOf_toNat (by omega)]; omega
    · simpa using ⟨hk _, hk _⟩
    · unfold utf8Len
      rw [byteOf_toNat (by omega), if_neg (by omega), if_neg (by omega), if_pos (by omega)]
      rfl
  rw [if_pos (by omega)]
  · refine ⟨_, _, rfl, ?_, by simp, ?_, ?_⟩
    · rw [byteOf_toNat (by omega)]; omega
    · simpa using ⟨hk _, hk _, hk _⟩
    · unfold utf8Len
      rw [byteOf_toNat (by omega), if_neg (by omega), if_neg (by omega), if_neg (by omega), if_pos (by omega)]
      rfl

theorem utf8_no_nul {c : Char} (h : c ≠ '\x00') : ∀ d ∈ utf8 [c], d ≠ '\x00' := by
  intro d hd
  refine utf8_nul h d ?_
  simpa [utf8] using hd

/-! ### references -/

theorem digit_mem {d : Char} (h : digitVal d < 16) : d ∈ "0123456789abcdefABCDEF".toList := by
  unfold digitVal at h
  have h16 : d.toLower ∈ "0123456789abcdef".toList := List.idxOf_lt_length_iff.mp h
  by_cases hu : 65 ≤ d.toNat ∧ d.toNat ≤ 90
  · have key : ∀ n, n < 26 → (Char.ofNat (65 + n)).toLower ∈ "0123456789abcdef".toList →
        Char.ofNat (65 + n) ∈ "0123456789abcdefABCDEF".toList := by decide
    have e : d = Char.ofNat (65 + (d.toNat - 65)) := by
      rw [show 65 + (d.toNat - 65) = d.toNat by omega, charOf_toNat]
    rw [e] at h16 ⊢
    exact key _ (by omega) h16
  · have e : d.toLower = d := by
      unfold Char.toLower
      rw [dif_neg]
      rintro ⟨h1, h2⟩
      rw [UInt32.le_iff_toNat_le] at h2
      rw [ge_iff_le, UInt32.le_iff_toNat_le] at h1
      exact hu ⟨h1, h2⟩
    rw [e] at h16
    have : ∀ x ∈ "0123456789abcdef".toList, x ∈ "0123456789abcdefABCDEF".toList := by decide
    exact this d h16

theorem digitVal_hex {d : Char} (h : digitVal d < 16) : hexDigit d = some (digitVal d) ∧ d ≠ 'x' ∧ d ≠ ';' := by
  have : ∀ x ∈ "0123456789abcdefABCDEF".toList, hexDigit x = some (digitVal x) ∧ x ≠ 'x' ∧ x ≠ ';' := by decide
  exact this d (digit_mem h)

theorem digitVal_dec {d : Char} (h : digitVal d < 10) : decDigit d = some (digitVal d) ∧ d ≠ '#' ∧ d ≠ ';' ∧ d ≠ 'x' := by
  have : ∀ x ∈ "0123456789abcdefABCDEF".toList, digitVal x < 10 →
    decDigit x = some (digitVal x) ∧ x ≠ '#' ∧ x ≠ ';' ∧ x ≠ 'x' := by decide
  exact this d (digit_mem (Nat.lt_of_lt_of_le h (by decide))) h

theorem digit_range {d : Char} (h : digitVal d < 16) : 48 ≤ d.toNat ∧ d.toNat < 128 ∧ d ≠ '<' := by
  have : ∀ x ∈ "0123456789abcdefABCDEF".toList, 48 ≤ x.toNat ∧ x.toNat < 128 ∧ x ≠ '<' := by decide
  exact this d (digit_mem h)

/-- the digits from the right -/
def numeralRev (base : Nat) (ds : List Char) : Nat := ds.foldr (fun d n => base * n + digitVal d) 0

theorem numeral_reverse (base : Nat) (ds : List Char) : numeralRev base ds.reverse = numeral base ds := by
  unfold numeralRev numeral
  rw [List.foldr_reverse]

theorem refValue_of {base : Nat} (hb : 0 < base) {digit : Char → Option Nat} {ds : List Char}
    (hd : ∀ d ∈ ds, digit d = some (digitVal d)) :
    ∀ (m ucs : Nat), m * numeralRev base ds < 2 ^ 32 → refValue base digit (m % 2 ^ 32) ucs ds = some (ucs + m * numeralRev base ds) := by
  induction ds with
  | nil => intro m ucs _; simp [refValue, numeralRev]
  | cons d ds ih =>
    intro m ucs h
    have e : numeralRev base (d :: ds) = base * numeralRev base ds + digitVal d := rfl
    rw [e, Nat.mul_add, ← Nat.mul_assoc] at h
    have h1 : m % 2 ^ 32 * base % 2 ^ 32 = m * base % 2 ^ 32 := by rw [Nat.mod_mul_mod]
    have h2 : m % 2 ^ 32 * digitVal d % 2 ^ 32 = m * digitVal d := by
      rw [Nat.mod_mul_mod]
      exact Nat.mod_eq_of_lt (by omega)
    rw [refValue, hd d List.mem_cons_self]
    simp only [h1, h2]
    rw [ih (fun x hx => hd x (List.mem_cons_of_mem _ hx)) _ _ (by omega), e, Nat.mul_add, ← Nat.mul_assoc]
    congr 1
    omega

theorem numericRef_of {enc : Enc} {base : Nat} (hb : 0 < base) {digit : Char → Option Nat} {mark : Char} {ds : List Char}
    (hd : ∀ d ∈ ds, digit d = some (digitVal d) ∧ d ≠ mark ∧ d ≠ ';') (hn : numeral base ds < 2 ^ 32) (r : List Char) :
    numericRef enc base digit mark (ds ++ ';' :: r) = some (refBytes enc (numeral base ds), r) := by
  have h1 : (ds ++ ';' :: r).dropWhile (· ≠ ';') = ';' :: r := by
    rw [List.dropWhile_append_of_pos (by intro c hc; simpa using (hd c hc).2.2), List.dropWhile_cons_of_neg (by simp)]
  have h2 : (ds ++ ';' :: r).takeWhile (· ≠ ';') = ds := by
    rw [List.takeWhile_append_of_pos (by intro c hc; simpa using (hd c hc).2.2), List.takeWhile_cons_of_neg (by simp), List.append_nil]
  have h3 : ds.reverse.takeWhile (· ≠ mark) = ds.reverse := by
    rw [← List.append_nil ds.reverse, List.takeWhile_append_of_pos
      (by intro c hc; simpa using (hd c (List.mem_reverse.mp hc)).2.1)]
    simp
  have h4 := refValue_of (digit := digit) (ds := ds.reverse) hb (fun d hx => (hd d (List.mem_reverse.mp hx)).1) 1 0
    (by rw [numeral_reverse]; omega)
  rw [numeral_reverse, Nat.one_mul, Nat.zero_add, Nat.mod_eq_of_lt (by decide)] at h4
  unfold numericRef
  rw [h1, h2, h3, h4]

/-- what a character becomes that is given by its number -/
theorem refBytes_of {enc : Enc} {c : Char} (h : enc = .utf8 ∨ c.toNat < 128) : refBytes enc c.toNat = utf8 [c] := by
  unfold refBytes
  split
  · rw [utf8_one]
  · rename_i he
    have hc : c.toNat < 128 := h.resolve_left he
    rw [utf8_ascii hc, Nat.mod_eq_of_lt (by omega), charOf_toNat]

theorem EntityText.parse {e : List Char} {c : Char} (h : EntityText e c) (r : List Char) :
    ∃ cs, e ++ r = '&' :: cs ∧ ∀ enc, getEntity enc cs = some (if c.toNat < 128 then [c] else refBytes enc c.toNat, r) := by
  have h32 : ∀ n, n = c.toNat → n < 2 ^ 32 := fun n e => by have := char_lt c; omega
  have hval : ∀ enc, refBytes enc c.toNat = if c.toNat < 128 then [c] else refBytes enc c.toNat := by
    intro enc
    split
    · rename_i h
      rw [refBytes_of (.inr h), utf8_ascii h]
    · rfl
  cases h with
  | @dec ds _ hne hd hv hz =>
    refine ⟨'#' :: (ds ++ ';' :: r), by simp, fun enc => ?_⟩
    cases ds with
    | nil => exact absurd rfl hne
    | cons d ds =>
      have hx : d ≠ 'x' := (digitVal_dec (hd d List.mem_cons_self)).2.2.2
      have := numericRef_of (enc := enc) (base := 10) (by decide) (digit := decDigit) (mark := '#') (ds := d :: ds)
        (fun x h => ⟨(digitVal_dec (hd x h)).1, (digitVal_dec (hd x h)).2.1, (digitVal_dec (hd x h)).2.2.1⟩) (h32 _ hv) r
      rw [hv, hval] at this
      rw [← this]
      unfold getEntity
      simp [hx]
  | @hex ds _ hne hd hv hz =>
    refine ⟨'#' :: 'x' :: (ds ++ ';' :: r), by simp, fun enc => ?_⟩
    have := numericRef_of (enc := enc) (base := 16) (by decide) (digit := hexDigit) (mark := 'x') (ds := ds)
      (fun x h => digitVal_hex (hd x h)) (h32 _ hv) r
    rw [hv, hval] at this
    rw [← this]
    unfold getEntity
    simp
  | _ => exact ⟨_, rfl, fun enc => by simp [getEntity, entities, List.find?, List.isPrefixOf]⟩

theorem EntityText.ne_nul {e : List Char} {c : Char} (h : EntityText e c) : c ≠ '\x00' := by
  cases h <;> first | assumption | decide

/-- the bytes of an entity or a reference -/
theorem EntityText.ascii {e : List Char} {c : Char} (h : EntityText e c) :
    (∀ x ∈ e, x.toNat < 128) ∧ '<' ∉ e ∧ '"' ∉ e ∧ '\'' ∉ e := by
  have dig : ∀ ds : List Char, (∀ d ∈ ds, digitVal d < 16) → ∀ p : List Char, (∀ x ∈ p, x.toNat < 128 ∧ x ≠ '<' ∧ x ≠ '"' ∧ x ≠ '\'') →
      (∀ x ∈ p ++ (ds ++ [';']), x.toNat < 128 ∧ x ≠ '<' ∧ x ≠ '"' ∧ x ≠ '\'') := by
    intro ds hd p hp x hx
    simp only [List.mem_append, List.mem_singleton] at hx
    rcases hx with hx | hx | rfl
    · exact hp x hx
    · obtain ⟨h1, h2, h3⟩ := digit_range (hd x hx)
      exact ⟨h2, h3, by rintro rfl; revert h1; decide, by rintro rfl; revert h1; decide⟩
    · decide
  have fin : ∀ e : List Char, (∀ x ∈ e, x.toNat < 128 ∧ x ≠ '<' ∧ x ≠ '"' ∧ x ≠ '\'') →
      (∀ x ∈ e, x.toNat < 128) ∧ '<' ∉ e ∧ '"' ∉ e ∧ '\'' ∉ e := fun e h =>
    ⟨fun x hx => (h x hx).1, fun hx => (h _ hx).2.1 rfl, fun hx => (h _ hx).2.2.1 rfl, fun hx => (h _ hx).2.2.2 rfl⟩
  apply fin
  cases h with
  | @dec ds _ hne hd hv hz => exact dig ds (fun d h => Nat.lt_of_lt_of_le (hd d h) (by decide)) ['&', '#'] (by decide)
  | @hex ds _ hne hd hv hz => exact dig ds hd ['&', '#', 'x'] (by decide)
  | _ => decide

theorem EntityText.first {e : List Char} {c : Char} (h : EntityText e c) : ∃ l, e = '&' :: l := by
  cases h <;> exact ⟨_, rfl⟩

end Tinyfk
