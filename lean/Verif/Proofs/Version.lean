import Verif.Proofs.Words

/-!
# The version attribute
-/

set_option linter.unusedSimpArgs false

namespace Tinyfk

theorem splitFrom_free {sep : Char → Bool} {w : List Char} (hw : ∀ c ∈ w, sep c = false) (cur : List Char) :
    splitFrom sep cur w = if cur ++ w = [] then [] else [cur ++ w] := by
  have := splitFrom_append hw cur []
  rw [List.append_nil] at this
  rw [this, splitFrom]

theorem splitFrom_cut {sep : Char → Bool} {w : List Char} (hw : ∀ c ∈ w, sep c = false) {d : Char} (hd : sep d = true)
    (cur r : List Char) : splitFrom sep cur (w ++ d :: r) = (cur ++ w) :: splitFrom sep [] r := by
  rw [splitFrom_append hw, splitFrom, hd, if_pos rfl]

theorem sep_cases (d : Char) (l : List Char) : d ∉ l ∨ ∃ w r, l = w ++ d :: r ∧ d ∉ w := by
  induction l with
  | nil => exact .inl (by simp)
  | cons c l ih =>
    by_cases hc : d = c
    · exact .inr ⟨[], l, by simp [hc], by simp⟩
    · rcases ih with h | ⟨w, r, h1, h2⟩
      · exact .inl (by simp [hc, h])
      · exact .inr ⟨c :: w, r, by simp [h1], by simp [hc, h2]⟩

theorem isDot_false {w : List Char} (h : '.' ∉ w) : ∀ c ∈ w, (fun c => c == '.') c = false := by
  intro c hc
  simp
  rintro rfl
  exact h hc

theorem splitDot_free {w : List Char} (h : '.' ∉ w) :
    splitString (fun c => c == '.') w = if w = [] then [] else [w] := by
  have := splitFrom_free (isDot_false h) []
  simpa [splitString] using this

theorem splitDot_cut {w : List Char} (h : '.' ∉ w) (r : List Char) :
    splitString (fun c => c == '.') (w ++ '.' :: r) = w :: splitString (fun c => c == '.') r := by
  have := splitFrom_cut (isDot_false h) (d := '.') (by simp) [] r
  simpa [splitString] using this

theorem splitDot_two {l a b : List Char} (hb : b ≠ []) : splitString (fun c => c == '.') l = [a, b] ↔
    (l = a ++ '.' :: b ∨ l = a ++ '.' :: b ++ ['.']) ∧ '.' ∉ a ∧ '.' ∉ b := by
  constructor
  · intro h
    rcases sep_cases '.' l with h1 | ⟨w, r, rfl, h1⟩
    · rw [splitDot_free h1] at h
      split at h <;> simp at h
    · rw [splitDot_cut h1] at h
      simp only [List.cons.injEq] at h
      obtain ⟨rfl, h⟩ := h
      rcases sep_cases '.' r with h2 | ⟨w2, r2, rfl, h2⟩
      · rw [splitDot_free h2] at h
        split at h
        · simp at h
        · simp at h; subst h; exact ⟨.inl rfl, h1, h2⟩
      · rw [splitDot_cut h2] at h
        simp only [List.cons.injEq] at h
        obtain ⟨rfl, h⟩ := h
        rcases sep_cases '.' r2 with h3 | ⟨w3, r3, rfl, h3⟩
        · rw [splitDot_free h3] at h
          split at h
          · rename_i h4; subst h4; exact ⟨.inr (by simp), h1, h2⟩
          · simp at h
        · rw [splitDot_cut h3] at h; simp at h
  · rintro ⟨rfl | rfl, ha, hb'⟩
    · rw [splitDot_cut ha, splitDot_free hb', if_neg hb]
    · rw [List.append_assoc, List.cons_append, splitDot_cut ha, splitDot_cut hb']
      rfl

theorem digitsVal_from (ds : List Char) (n : Nat) :
    ds.foldl (fun n c => 10 * n + (c.toNat - 48)) n = n * 10 ^ ds.length + decimal ds := by
  induction ds generalizing n with
  | nil => simp [decimal]
  | cons c ds ih =>
    rw [List.foldl_cons, ih, decimal, List.length_cons, Nat.pow_succ]
    have : '0'.toNat = 48 := rfl
    rw [this, Nat.add_mul]
    have : 10 * n * 10 ^ ds.length = n * (10 ^ ds.length * 10) := by
      rw [Nat.mul_comm 10 n, Nat.mul_assoc, Nat.mul_comm 10]
    omega

theorem digitsVal_eq (ds : List Char) : digitsVal ds = decimal ds := by
  have := digitsVal_from ds 0
  simpa [digitsVal] using this

theorem isCSpace_iff (c : Char) : isCSpace c = true ↔ c ∈ [' ', '\t', '\n', '\x0b', '\x0c', '\r'] := by
  simp [isCSpace, or_assoc]

theorem not_space_of_digit {c : Char} (h : c.isDigit) : isCSpace c = false := by
  cases hs : isCSpace c with
  | false => rfl
  | true =>
    rw [isCSpace_iff] at hs
    simp only [List.mem_cons, List.not_mem_nil, or_false] at hs
    rcases hs with rfl | rfl | rfl | rfl | rfl | rfl <;> exact absurd h (by decide)

theorem dropWhile_append_left {p : Char → Bool} {w l : List Char} (hw : ∀ c ∈ w, p c = true)
    (hl : ∀ c r, l = c :: r → p c = false) : (w ++ l).dropWhile p = l := by
  induction w with
  | nil =>
    cases l with
    | nil => rfl
    | cons c r => simp [List.dropWhile, hl c r rfl]
  | cons c w ih => simp [List.dropWhile, hw c (by simp), ih fun d hd => hw d (by simp [hd])]

theorem takeWhile_all {p : Char → Bool} {w : List Char} (hw : ∀ c ∈ w, p c = true) : w.takeWhile p = w := by
  induction w with
  | nil => rfl
  | cons c w ih => simp [List.takeWhile, hw c (by simp), ih fun d hd => hw d (by simp [hd])]

theorem dropWhile_all {p : Char → Bool} {w : List Char} (hw : ∀ c ∈ w, p c = true) : w.dropWhile p = [] := by
  have := dropWhile_append_left (l := []) hw (by simp)
  simpa using this

theorem mem_takeWhile {p : Char → Bool} {w : List Char} : ∀ c ∈ w.takeWhile p, p c = true := by
  induction w with
  | nil => simp
  | cons c w ih =>
    intro d hd
    rw [List.takeWhile] at hd
    split at hd
    · rcases List.mem_cons.mp hd with rfl | hd
      · assumption
      · exact ih d hd
    · simp at hd

theorem p63 : (2 : Nat) ^ 63 - 1 = 9223372036854775807 := rfl

theorem p32 : (2 : Nat) ^ 32 = 4294967296 := rfl

theorem strToUnsigned_iff {t : List Char} {n : Nat} : strToUnsigned t = some n ↔ UnsignedText t n := by
  constructor
  · intro h
    unfold strToUnsigned at h
    split at h
    · cases h
    split at h
    · cases h
    rename_i v rest hs
    split at h
    · cases h
    rename_i hrest
    have hrest : rest = [] := by simpa using hrest
    subst hrest
    split at h
    · cases h
    rename_i hv
    simp only [Option.some.injEq] at h
    unfold strtol at hs
    dsimp only at hs
    have hw : t.takeWhile isCSpace ++ t.dropWhile isCSpace = t := List.takeWhile_append_dropWhile
    have hws : ∀ c ∈ t.takeWhile isCSpace, c ∈ [' ', '\t', '\n', '\x0b', '\x0c', '\r'] :=
      fun c hc => (isCSpace_iff c).mp (mem_takeWhile c hc)
    generalize t.dropWhile isCSpace = s at hs hw
    generalize t.takeWhile isCSpace = w at hw hws
    -- the three shapes of the sign
    have fin : ∀ (neg : Bool) (sign s' : List Char), s = sign ++ s' →
        (sign = [] ∨ sign = ['+']) ∧ neg = false ∨ sign = ['-'] ∧ neg = true →
        (if s'.takeWhile Char.isDigit = [] then none else
          some (if neg = true then max (-((digitsVal (s'.takeWhile Char.isDigit) : Nat) : Int)) (-9223372036854775808)
            else min ((digitsVal (s'.takeWhile Char.isDigit) : Nat) : Int) 9223372036854775807, s'.dropWhile Char.isDigit)) =
          some (v, ([] : List Char)) → UnsignedText t n := by
      intro neg sign s' he hsign heq
      split at heq
      · cases heq
      rename_i hne
      simp only [Option.some.injEq, Prod.mk.injEq] at heq
      obtain ⟨hv', hd⟩ := heq
      have hs' : s'.takeWhile Char.isDigit = s' := by
        have := List.takeWhile_append_dropWhile (p := Char.isDigit) (l := s')
        rwa [hd, List.append_nil] at this
      have hdig : ∀ c ∈ s', c.isDigit = true := by rw [← hs']; exact mem_takeWhile
      rw [hs', digitsVal_eq] at hv'
      refine ⟨w, sign, s', by rw [← hw, he, List.append_assoc], hws, ?_, hs' ▸ hne, hdig, ?_⟩
      · rcases hsign with ⟨h1 | h1, _⟩ | ⟨h1, h2⟩
        · exact .inl h1
        · exact .inr (.inl h1)
        · refine .inr (.inr ⟨h1, ?_⟩)
          rw [h2, if_pos rfl] at hv'
          omega
      · rcases hsign with ⟨_, h2⟩ | ⟨_, h2⟩
        · rw [h2] at hv'
          simp only [Bool.false_eq_true, if_false] at hv'
          rw [← h, p63, p32]
          omega
        · rw [h2, if_pos rfl] at hv'
          rw [← h, p63, p32]
          omega
    unfold signOf at hs
    split at hs
    · exact fin true ['-'] _ rfl (.inr ⟨rfl, rfl⟩) hs
    · exact fin false ['+'] _ rfl (.inl ⟨.inr rfl, rfl⟩) hs
    · exact fin false [] _ rfl (.inl ⟨.inl rfl, rfl⟩) hs
  · rintro ⟨ws, sign, ds, rfl, hws, hsign, hne, hdig, rfl⟩
    have h0 : ws ++ sign ++ ds ≠ [] := by simp [hne]
    unfold strToUnsigned
    rw [if_neg h0]
    have hdrop : (ws ++ sign ++ ds).dropWhile isCSpace = sign ++ ds := by
      rw [List.append_assoc]
      refine dropWhile_append_left (fun c hc => (isCSpace_iff c).mpr (hws c hc)) ?_
      intro c r e
      rcases hsign with rfl | rfl | ⟨rfl, _⟩
      · exact not_space_of_digit (hdig c (by rw [List.nil_append] at e; simp [e]))
      · simp at e; rw [← e.1]; decide
      · simp at e; rw [← e.1]; decide
    have htk := takeWhile_all hdig
    have hdk := dropWhile_all hdig
    unfold strtol
    rw [hdrop]
    have key : ∃ neg : Bool, signOf (sign ++ ds) = (neg, ds) ∧ (neg = true → decimal ds = 0) := by
      rcases hsign with rfl | rfl | ⟨rfl, hz⟩
      · obtain ⟨d, ds', rfl⟩ := List.exists_cons_of_ne_nil hne
        have hd := hdig d (by simp)
        refine ⟨false, ?_, by simp⟩
        rw [List.nil_append]
        unfold signOf
        split
        · rename_i e; simp only [List.cons.injEq] at e; rw [e.1] at hd; exact absurd hd (by decide)
        · rename_i e; simp only [List.cons.injEq] at e; rw [e.1] at hd; exact absurd hd (by decide)
        · rfl
      · exact ⟨false, rfl, by simp⟩
      · exact ⟨true, rfl, fun _ => hz⟩
    obtain ⟨neg, e, hz⟩ := key
    simp only [e, htk, hdk, if_neg hne, digitsVal_eq, ne_eq, not_true_eq_false, if_false]
    cases neg with
    | false =>
      simp only [Bool.false_eq_true, if_false]
      rw [if_neg (by omega)]
      simp only [Option.some.injEq]
      rw [p63, p32]
      omega
    | true =>
      have := hz rfl
      simp [this]
      decide

/-- The version attribute is read as `VersionText` says. -/
theorem urdfVersion_iff {s : String} {x y : Nat} : urdfVersion (some s) = some (x, y) ↔ VersionText s x y := by
  have hne : ∀ {b : List Char} {n : Nat}, UnsignedText b n → b ≠ [] := by
    rintro b n ⟨ws, sign, ds, rfl, _, _, hne, _⟩
    simp [hne]
  constructor
  · intro h
    simp only [urdfVersion] at h
    split at h
    case h_2 => cases h
    rename_i a b hs
    split at h
    · cases h
    rename_i x' hx
    split at h
    · cases h
    rename_i y' hy
    simp only [Option.some.injEq, Prod.mk.injEq] at h
    obtain ⟨rfl, rfl⟩ := h
    rw [strToUnsigned_iff] at hx hy
    obtain ⟨h1, h2, h3⟩ := (splitDot_two (hne hy)).mp hs
    exact ⟨a, b, h1, h2, h3, hx, hy⟩
  · rintro ⟨a, b, h1, h2, h3, hx, hy⟩
    have hs := (splitDot_two (hne hy)).mpr ⟨h1, h2, h3⟩
    rw [← strToUnsigned_iff] at hx hy
    simp only [urdfVersion, hs, hx, hy]

end Tinyfk
