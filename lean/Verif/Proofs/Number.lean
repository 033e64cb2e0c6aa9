import Verif.Model.Number
import Verif.Spec.Number
import Verif.Proofs.Version
import Mathlib.Tactic.Ring

/-!
# What `strToDouble` accepts
-/

namespace Tinyfk

variable {K : Type}

/-! ### The loop over the digits -/

theorem not_digit_of {c : Char} (h : c = '.' ∨ c = 'e' ∨ c = 'E' ∨ c = '+' ∨ c = '-') : c.isDigit = false := by
  rcases h with rfl | rfl | rfl | rfl | rfl <;> decide

/-- digits are passed on -/
theorem floatLoop_digits {ds : List Char} (h : ∀ c ∈ ds, c.isDigit) (m d s : Bool) (r : List Char) :
    floatLoop m d s (ds ++ r) = (ds ++ (floatLoop (m || !ds.isEmpty) d s r).1, (floatLoop (m || !ds.isEmpty) d s r).2) := by
  induction ds generalizing m with
  | nil => simp
  | cons c ds ih =>
    rw [List.cons_append, floatLoop.eq_def]
    simp only [h c (by simp), if_true]
    rw [ih (fun c hc => h c (by simp [hc]))]
    simp

/-- after the `e`, the loop reads digits only -/
theorem floatLoop_sci (m d : Bool) (t : List Char) : (floatLoop m d true t).2 = [] ↔ ∀ c ∈ t, c.isDigit := by
  induction t generalizing m with
  | nil => simp [floatLoop]
  | cons c t ih =>
    rw [floatLoop.eq_def]
    by_cases hc : c.isDigit = true
    · simp [hc, ih]
    · simp [hc]

theorem floatLoop_sci_fst {m d : Bool} {t : List Char} (h : ∀ c ∈ t, c.isDigit) : floatLoop m d true t = (t, []) := by
  have := floatLoop_digits h m d true []
  simpa [floatLoop] using this

/-- an exponent as the loop reads it: digits may be missing -/
inductive ExpRead : List Char → List Char → Prop
  | none : ExpRead [] []
  | some {c : Char} {sg ds : List Char} {neg : Bool} : c = 'e' ∨ c = 'E' → SignText sg neg →
      (∀ c ∈ ds, c.isDigit) → ExpRead (c :: (sg ++ ds)) ('e' :: (sg ++ ds))

theorem floatLoop_exp {t : List Char} {c : Char} (hc : c = 'e' ∨ c = 'E') (d : Bool) (h : (floatLoop true d false (c :: t)).2 = []) :
    ExpRead (c :: t) (floatLoop true d false (c :: t)).1 := by
  have h1 : c.isDigit = false := not_digit_of (.inr (hc.imp_right .inl))
  have h2 : c ≠ '.' := by rcases hc with rfl | rfl <;> decide
  rw [floatLoop.eq_def] at h ⊢
  simp only [h1, h2, false_and, hc, if_true, and_self, Bool.false_eq_true, if_false] at h ⊢
  cases t with
  | nil => exact .some (sg := []) (ds := []) hc .none (by simp)
  | cons s t =>
    dsimp only at h ⊢
    by_cases hs : s = '+' ∨ s = '-'
    · rw [if_pos hs] at h ⊢
      rw [floatLoop_sci] at h
      rw [floatLoop_sci_fst h]
      rcases hs with rfl | rfl
      · exact .some (sg := ['+']) hc .plus h
      · exact .some (sg := ['-']) hc .minus h
    · rw [if_neg hs] at h ⊢
      rw [floatLoop_sci] at h
      rw [floatLoop_sci_fst h]
      exact .some (sg := []) hc .none h

theorem floatLoop_exp_read {ex x : List Char} (h : ExpRead ex x) (m d : Bool) (hm : ex ≠ [] → m = true) :
    floatLoop m d false ex = (x, []) := by
  cases h with
  | none => simp [floatLoop]
  | @some c sg ds neg hc hs hd =>
    have h1 : c.isDigit = false := not_digit_of (.inr (hc.imp_right .inl))
    have h2 : c ≠ '.' := by rcases hc with rfl | rfl <;> decide
    rw [floatLoop.eq_def]
    simp only [h1, h2, false_and, hc, hm (by simp), if_true, and_self, Bool.false_eq_true, if_false]
    cases hs with
    | none =>
      cases ds with
      | nil => rfl
      | cons s ds =>
        have h3 := hd s (by simp)
        have h4 : ¬ (s = '+' ∨ s = '-') := by
          intro h; rw [not_digit_of (.inr (.inr (.inr h)))] at h3; cases h3
        simp only [List.nil_append]
        rw [if_neg h4, floatLoop_sci_fst hd]
    | plus => simp [floatLoop_sci_fst hd]
    | minus => simp [floatLoop_sci_fst hd]

/-- splitting off the digits -/
theorem span_digits (t : List Char) : ∃ ds r : List Char, t = ds ++ r ∧ (∀ c ∈ ds, c.isDigit) ∧ (∀ c r', r = c :: r' → c.isDigit = false) := by
  induction t with
  | nil => exact ⟨[], [], rfl, by simp, by simp⟩
  | cons c t ih =>
    by_cases hc : c.isDigit = true
    · obtain ⟨ds, r, rfl, h1, h2⟩ := ih
      exact ⟨c :: ds, r, rfl, by simpa [hc] using h1, h2⟩
    · exact ⟨[], c :: t, rfl, by simp, by rintro _ _ h; cases h; simpa using hc⟩

/-- the loop after the point -/
theorem floatLoop_frac {m : Bool} {t : List Char} (h : (floatLoop m true false t).2 = []) :
    ∃ fp ex x, t = fp ++ ex ∧ (∀ c ∈ fp, c.isDigit) ∧ ExpRead ex x ∧ (ex ≠ [] → (m || !fp.isEmpty) = true) ∧
      floatLoop m true false t = (fp ++ x, []) := by
  obtain ⟨fp, ex, rfl, h1, h2⟩ := span_digits t
  rw [floatLoop_digits h1] at h ⊢
  refine ⟨fp, ex, (floatLoop (m || !fp.isEmpty) true false ex).1, rfl, h1, ?_, ?_, by rw [h]⟩
  all_goals
    dsimp only at h
    cases ex with
    | nil => first | (rw [floatLoop.eq_def]; exact .none) | simp
    | cons c ex =>
      have h3 := h2 c ex rfl
      by_cases hc : (c = 'e' ∨ c = 'E') ∧ (m || !fp.isEmpty) = true
      · first
          | exact fun _ => hc.2
          | (rw [hc.2] at h ⊢; exact floatLoop_exp hc.1 _ h)
      · exfalso
        rw [floatLoop.eq_def] at h
        dsimp only at h
        rw [if_neg (by simp [h3]), if_neg (by simp), if_neg (fun hh => hc ⟨hh.1, hh.2.2⟩)] at h
        cases h

/-- the loop from the beginning -/
theorem floatLoop_all {m : Bool} {t : List Char} (h : (floatLoop m false false t).2 = []) :
    (∃ ip ex x, t = ip ++ ex ∧ (∀ c ∈ ip, c.isDigit) ∧ ExpRead ex x ∧ (ex ≠ [] → (m || !ip.isEmpty) = true) ∧
      floatLoop m false false t = (ip ++ x, [])) ∨
    ∃ ip fp ex x, t = ip ++ '.' :: (fp ++ ex) ∧ (∀ c ∈ ip, c.isDigit) ∧ (∀ c ∈ fp, c.isDigit) ∧ ExpRead ex x ∧
      (ex ≠ [] → (m || !ip.isEmpty || !fp.isEmpty) = true) ∧ floatLoop m false false t = (ip ++ '.' :: (fp ++ x), []) := by
  obtain ⟨ip, r, rfl, h1, h2⟩ := span_digits t
  rw [floatLoop_digits h1] at h ⊢
  dsimp only at h
  cases r with
  | nil => exact .inl ⟨ip, [], [], rfl, h1, .none, by simp, by simp [floatLoop]⟩
  | cons c r =>
    have h3 := h2 c r rfl
    by_cases hp : c = '.'
    · subst hp
      have e : floatLoop (m || !ip.isEmpty) false false ('.' :: r) =
          ('.' :: (floatLoop (m || !ip.isEmpty) true false r).1, (floatLoop (m || !ip.isEmpty) true false r).2) := by
        rw [floatLoop.eq_def]; simp [h3]
      rw [e] at h ⊢
      dsimp only at h ⊢
      obtain ⟨fp, ex, x, rfl, k1, k2, k3, k4⟩ := floatLoop_frac h
      exact .inr ⟨ip, fp, ex, x, rfl, h1, k1, k2, k3, by rw [k4]⟩
    · by_cases hc : (c = 'e' ∨ c = 'E') ∧ (m || !ip.isEmpty) = true
      · refine .inl ⟨ip, c :: r, _, rfl, h1, ?_, fun _ => hc.2, by rw [h]⟩
        rw [hc.2] at h ⊢
        exact floatLoop_exp hc.1 _ h
      · rw [floatLoop.eq_def] at h
        simp only [h3, Bool.false_eq_true, if_false, hp, false_and, true_and, hc] at h
        cases h

/-! ### `strtod` on what was extracted -/

theorem takeWhile_digits {ds r : List Char} (h : ∀ c ∈ ds, c.isDigit) (hr : ∀ c r', r = c :: r' → c.isDigit = false) :
    (ds ++ r).takeWhile Char.isDigit = ds ∧ (ds ++ r).dropWhile Char.isDigit = r := by
  induction ds with
  | nil =>
    cases r with
    | nil => simp
    | cons c r => simp [hr c r rfl]
  | cons c ds ih => simpa [h c (by simp)] using ih (fun c hc => h c (by simp [hc]))

theorem signOf_text {sg r : List Char} {neg : Bool} (h : SignText sg neg) (hr : ∀ c r', r = c :: r' → c ≠ '+' ∧ c ≠ '-') :
    signOf (sg ++ r) = (neg, r) := by
  cases h with
  | none =>
    cases r with
    | nil => rfl
    | cons c r =>
      obtain ⟨h1, h2⟩ := hr c r rfl
      simp only [List.nil_append]
      unfold signOf
      split
      · simp_all
      · simp_all
      · rfl
  | plus => rfl
  | minus => rfl

theorem digit_not_sign {c : Char} (h : c.isDigit) : c ≠ '+' ∧ c ≠ '-' := by
  constructor <;> rintro rfl <;> exact absurd h (by decide)

/-- an exponent as read, with its value when it is complete -/
theorem expPart_read {ex x : List Char} (h : ExpRead ex x) :
    (∃ E, ExpText ex E ∧ expPart x = (E, [])) ∨ ((∀ E, ¬ ExpText ex E) ∧ (expPart x).2 ≠ []) := by
  cases h with
  | none => exact .inl ⟨0, .none, rfl⟩
  | @some c sg ds neg hc hs hd =>
    have e := signOf_text (r := ds) hs (by rintro c r' rfl; exact digit_not_sign (hd c (by simp)))
    obtain ⟨t1, t2⟩ := takeWhile_digits (r := []) hd (by simp)
    rw [List.append_nil] at t1 t2
    by_cases hne : ds = []
    · right
      constructor
      · intro E hE
        generalize hx : c :: (sg ++ ds) = y at hE
        cases hE with
        | none => cases hx
        | @some c' sg' ds' neg' hc' hs' hne' hd' =>
          simp only [List.cons.injEq] at hx
          obtain ⟨-, hx⟩ := hx
          subst hne
          rw [List.append_nil] at hx
          subst hx
          obtain ⟨a, ha⟩ := List.exists_mem_of_ne_nil _ hne'
          have h1 := digit_not_sign (hd' a ha)
          generalize hy : sg' ++ ds' = y at hs
          have h2 : a ∈ y := by rw [← hy]; simp [ha]
          cases hs with
          | none => simp at h2
          | plus => simp at h2; exact h1.1 h2
          | minus => simp at h2; exact h1.2 h2
      · subst hne
        simp only [List.append_nil] at e ⊢
        simp [expPart, e]
    · left
      refine ⟨_, .some hc hs hne hd, ?_⟩
      simp [expPart, e, t1, t2, hne, digitsVal_eq]

theorem expText_read {ex : List Char} {E : Int} (h : ExpText ex E) : ∃ x, ExpRead ex x ∧ expPart x = (E, []) := by
  cases h with
  | none => exact ⟨_, .none, rfl⟩
  | @some c sg ds neg hc hs hne hd =>
    have e := signOf_text (r := ds) hs (by rintro c r' rfl; exact digit_not_sign (hd c (by simp)))
    obtain ⟨t1, t2⟩ := takeWhile_digits (r := []) hd (by simp)
    rw [List.append_nil] at t1 t2
    exact ⟨_, .some hc hs hd, by simp [expPart, e, t1, t2, hne, digitsVal_eq]⟩

theorem expRead_head {ex x : List Char} (h : ExpRead ex x) : ∀ c r', x = c :: r' → c = 'e' := by
  cases h with
  | none => simp
  | some _ _ _ => intro c r' h; simp only [List.cons.injEq] at h; exact h.1.symm

/-- `strtod` does not skip anything here: the text starts with a sign, a digit or a point -/
theorem dropWhile_space {s : List Char} (h : ∀ c r, s = c :: r → isCSpace c = false) : s.dropWhile isCSpace = s := by
  cases s with
  | nil => rfl
  | cons c s => simp [h c s rfl]

theorem digit_not_space {c : Char} (h : c.isDigit) : isCSpace c = false := by
  cases e : isCSpace c with
  | false => rfl
  | true =>
    simp only [isCSpace, Bool.or_eq_true, beq_iff_eq] at e
    rcases e with ((((rfl | rfl) | rfl) | rfl) | rfl) | rfl <;> exact absurd h (by decide)

theorem strtod_whole {sg ip x : List Char} {neg : Bool} (hs : SignText sg neg) (hi : ∀ c ∈ ip, c.isDigit) {ex : List Char}
    (hx : ExpRead ex x) (hne : ip ≠ []) :
    strtod (sg ++ (ip ++ x)) = some ((neg, decimal ip, (expPart x).1), (expPart x).2) := by
  have hh := expRead_head hx
  have hd : ∀ c r', x = c :: r' → c.isDigit = false := fun c r' e => by rw [hh c r' e]; decide
  obtain ⟨a, ip', rfl⟩ := List.exists_cons_of_ne_nil hne
  have ha := hi a (by simp)
  have e1 : (sg ++ (a :: ip' ++ x)).dropWhile isCSpace = sg ++ (a :: ip' ++ x) := by
    apply dropWhile_space
    intro c r h
    cases hs with
    | none => simp at h; rw [← h.1]; exact digit_not_space ha
    | plus => simp at h; rw [← h.1]; decide
    | minus => simp at h; rw [← h.1]; decide
  have e2 := signOf_text (r := a :: ip' ++ x) hs (by intro c r h; simp at h; rw [← h.1]; exact digit_not_sign ha)
  obtain ⟨t1, t2⟩ := takeWhile_digits hi hd
  have e3 : fracPart x = ([], x) := by
    cases x with
    | nil => rfl
    | cons c x =>
      have := hh c x rfl
      subst this
      rfl
  unfold strtod
  simp only [e1, e2, t1, t2, e3]
  simp [digitsVal_eq]

theorem strtod_point {sg ip fp x : List Char} {neg : Bool} (hs : SignText sg neg) (hi : ∀ c ∈ ip, c.isDigit)
    (hf : ∀ c ∈ fp, c.isDigit) {ex : List Char} (hx : ExpRead ex x) :
    strtod (sg ++ (ip ++ '.' :: (fp ++ x))) = if ip ++ fp = [] then none else
      some ((neg, decimal (ip ++ fp), (expPart x).1 - fp.length), (expPart x).2) := by
  have hh := expRead_head hx
  have hd : ∀ c r', x = c :: r' → c.isDigit = false := fun c r' e => by rw [hh c r' e]; decide
  have h0 : ∀ c r, ip ++ '.' :: (fp ++ x) = c :: r → c.isDigit ∨ c = '.' := by
    intro c r h
    cases ip with
    | nil => simp at h; exact .inr h.1.symm
    | cons a ip => simp at h; rw [← h.1]; exact .inl (hi a (by simp))
  have e1 : (sg ++ (ip ++ '.' :: (fp ++ x))).dropWhile isCSpace = sg ++ (ip ++ '.' :: (fp ++ x)) := by
    apply dropWhile_space
    intro c r h
    cases hs with
    | none =>
      rcases h0 c r h with h | rfl
      · exact digit_not_space h
      · decide
    | plus => simp at h; rw [← h.1]; decide
    | minus => simp at h; rw [← h.1]; decide
  have e2 := signOf_text (r := ip ++ '.' :: (fp ++ x)) hs (by
    intro c r h
    rcases h0 c r h with h | rfl
    · exact digit_not_sign h
    · decide)
  obtain ⟨t1, t2⟩ := takeWhile_digits (r := '.' :: (fp ++ x)) hi (by intro c r h; simp at h; rw [← h.1]; decide)
  obtain ⟨t3, t4⟩ := takeWhile_digits hf hd
  unfold strtod
  simp only [e1, e2, t1, t2, fracPart, t3, t4, digitsVal_eq, List.append_eq_nil_iff]

/-! ### Leading zeros -/

theorem skipZeros_spec (t : List Char) (f : Bool) : ∃ n : Nat, t = List.replicate n '0' ++ (skipZeros f t).2 ∧
    (skipZeros f t).1 = (f || decide (0 < n)) := by
  induction t generalizing f with
  | nil => exact ⟨0, by simp [skipZeros], by simp [skipZeros]⟩
  | cons c t ih =>
    by_cases hc : c = '0'
    · subst hc
      obtain ⟨n, h1, h2⟩ := ih true
      have e : skipZeros f ('0' :: t) = skipZeros true t := by simp [skipZeros]
      refine ⟨n + 1, ?_, ?_⟩
      · rw [e, List.replicate_succ, List.cons_append, ← h1]
      · rw [e, h2]; simp
    · exact ⟨0, by simp [skipZeros, hc], by simp [skipZeros, hc]⟩

theorem decimal_zeros (n : Nat) (ds : List Char) : decimal (List.replicate n '0' ++ ds) = decimal ds := by
  induction n with
  | zero => simp
  | succ n ih => rw [List.replicate_succ, List.cons_append, decimal, ih]; simp

theorem skipZeros_digits (ip : List Char) {r : List Char} (hr : ∀ c r', r = c :: r' → c ≠ '0') (f : Bool) :
    ∃ n ip', ip = List.replicate n '0' ++ ip' ∧ skipZeros f (ip ++ r) = (f || decide (0 < n), ip' ++ r) := by
  induction ip generalizing f with
  | nil =>
    refine ⟨0, [], rfl, ?_⟩
    cases r with
    | nil => simp [skipZeros]
    | cons c r => simp [skipZeros, hr c r rfl]
  | cons c ip ih =>
    by_cases hc : c = '0'
    · subst hc
      obtain ⟨n, ip', h1, h2⟩ := ih true
      refine ⟨n + 1, ip', by rw [List.replicate_succ, List.cons_append, ← h1], ?_⟩
      rw [List.cons_append]
      simp only [skipZeros, if_true, h2]
      simp
    · exact ⟨0, c :: ip, rfl, by simp [skipZeros, hc]⟩

/-! ### The whole function -/

theorem signText_extract {sg r : List Char} {neg : Bool} (h : SignText sg neg) (hr : ∀ c r', r = c :: r' → c ≠ '+' ∧ c ≠ '-') :
    extractFloat (sg ++ r) = (sg ++ ((if (skipZeros false r).1 then ['0'] else []) ++
      (floatLoop (skipZeros false r).1 false false (skipZeros false r).2).1),
      (floatLoop (skipZeros false r).1 false false (skipZeros false r).2).2) := by
  unfold extractFloat
  cases h with
  | none =>
    cases r with
    | nil => rfl
    | cons c r =>
      obtain ⟨h1, h2⟩ := hr c r rfl
      simp only [List.nil_append]
      split <;> simp_all
  | plus => simp
  | minus => simp

/-- every text splits into an optional sign and a rest that `extractFloat` does not take for a sign -/
theorem sign_split (t : List Char) : ∃ sg r neg, t = sg ++ r ∧ SignText sg neg ∧
    (extractFloat t = (sg ++ ((if (skipZeros false r).1 then ['0'] else []) ++
      (floatLoop (skipZeros false r).1 false false (skipZeros false r).2).1),
      (floatLoop (skipZeros false r).1 false false (skipZeros false r).2).2)) := by
  cases t with
  | nil => exact ⟨[], [], _, rfl, .none, signText_extract .none (by simp)⟩
  | cons c t =>
    by_cases h1 : c = '+'
    · subst h1
      exact ⟨['+'], t, _, rfl, .plus, by simp [extractFloat]⟩
    · by_cases h2 : c = '-'
      · subst h2
        exact ⟨['-'], t, _, rfl, .minus, by simp [extractFloat]⟩
      · exact ⟨[], c :: t, _, rfl, .none, signText_extract .none (by rintro _ _ h; cases h; exact ⟨h1, h2⟩)⟩

theorem zeros_digit (n : Nat) : ∀ c ∈ List.replicate n '0', c.isDigit = true := by
  intro c hc; rw [List.eq_of_mem_replicate hc]; decide

/-- what `strToDouble` accepts after the white space -/
theorem convert_extract {rnd : Bool → Nat → Int → Option K} {t : List Char} {v : K} :
    (convertToV rnd (extractFloat t).1 = some v ∧ (extractFloat t).2 = []) ↔
    ∃ neg M E, rnd neg M E = some v ∧
      ((∃ sg ip ex, t = sg ++ (ip ++ ex) ∧ SignText sg neg ∧ ip ≠ [] ∧ (∀ c ∈ ip, c.isDigit) ∧ ExpText ex E ∧ M = decimal ip) ∨
       (∃ sg ip fp ex E', t = sg ++ (ip ++ '.' :: (fp ++ ex)) ∧ SignText sg neg ∧ ip ++ fp ≠ [] ∧ (∀ c ∈ ip ++ fp, c.isDigit) ∧
         ExpText ex E' ∧ M = decimal (ip ++ fp) ∧ E = E' - fp.length)) := by
  constructor
  · rintro ⟨h1, h2⟩
    obtain ⟨sg, r, neg, rfl, hs, e⟩ := sign_split t
    rw [e] at h1 h2
    dsimp only at h1 h2
    obtain ⟨n, z1, z2⟩ := skipZeros_spec r false
    simp only [Bool.false_or] at z2
    generalize (skipZeros false r).2 = r2 at h1 h2 z1
    rw [z2] at h1 h2
    subst z1
    obtain ⟨zl, hzl⟩ : ∃ zl, zl = if decide (0 < n) = true then ['0'] else [] := ⟨_, rfl⟩
    rw [← hzl] at h1
    have hz : ∀ c ∈ zl, c.isDigit = true := by
      intro c hc
      rw [hzl] at hc
      split at hc
      · rw [List.mem_singleton.mp hc]; decide
      · cases hc
    have hd0 : ∀ ds, decimal (zl ++ ds) = decimal ds := by
      intro ds
      rw [hzl]
      split
      · exact decimal_zeros 1 ds
      · rfl
    have hnil : zl = [] ↔ n = 0 := by
      rw [hzl]
      rcases Nat.eq_zero_or_pos n with rfl | hn
      · simp
      · simp [hn]; omega
    rcases floatLoop_all h2 with ⟨ip, ex, x, rfl, k1, k2, k3, k4⟩ | ⟨ip, fp, ex, x, rfl, k1, k1', k2, k3, k4⟩
    · rw [k4] at h1
      dsimp only at h1
      rw [← List.append_assoc zl] at h1
      have hi : ∀ c ∈ zl ++ ip, c.isDigit = true := by
        intro c hc; rcases List.mem_append.mp hc with h | h
        · exact hz c h
        · exact k1 c h
      by_cases hne : zl ++ ip = []
      · exfalso
        obtain ⟨a1, a2⟩ := List.append_eq_nil_iff.mp hne
        subst a2
        have hn : n = 0 := hnil.mp a1
        have hex : ex = [] := by
          by_contra hex
          have := k3 hex
          simp [hn] at this
        subst hex
        cases k2
        subst a1
        cases hs <;> simp [convertToV, strtod, signOf, fracPart, isCSpace] at h1
      · unfold convertToV at h1
        rw [strtod_whole hs hi k2 hne] at h1
        dsimp only at h1
        split at h1
        case isFalse => cases h1
        rename_i hrest
        rcases expPart_read k2 with ⟨E, hE, hx⟩ | ⟨_, hx⟩
        · refine ⟨neg, _, _, h1, .inl ⟨sg, List.replicate n '0' ++ ip, ex, ?_, hs, ?_, ?_, ?_, ?_⟩⟩
          · simp
          · intro h0
            obtain ⟨a1, a2⟩ := List.append_eq_nil_iff.mp h0
            apply hne
            rw [hnil.mpr (by simpa using a1), a2]; rfl
          · intro c hc; rcases List.mem_append.mp hc with h | h
            · exact zeros_digit n c h
            · exact k1 c h
          · rw [hx]; exact hE
          · rw [hd0, decimal_zeros]
        · exact absurd hrest hx
    · rw [k4] at h1
      dsimp only at h1
      rw [← List.append_assoc zl] at h1
      have hi : ∀ c ∈ zl ++ ip, c.isDigit = true := by
        intro c hc; rcases List.mem_append.mp hc with h | h
        · exact hz c h
        · exact k1 c h
      unfold convertToV at h1
      rw [strtod_point hs hi k1' k2] at h1
      split at h1
      · cases h1
      · rename_i heq
        split at heq
        · cases heq
        rename_i hne
        cases heq
        split at h1
        case isFalse => cases h1
        rename_i hrest
        rcases expPart_read k2 with ⟨E, hE, hx⟩ | ⟨_, hx⟩
        · refine ⟨neg, _, _, h1, .inr ⟨sg, List.replicate n '0' ++ ip, fp, ex, E, ?_, hs, ?_, ?_, hE, ?_, ?_⟩⟩
          · simp
          · intro h0
            rw [List.append_assoc] at h0
            obtain ⟨a1, a2⟩ := List.append_eq_nil_iff.mp h0
            apply hne
            rw [hnil.mpr (by simpa using a1)]
            simpa using a2
          · intro c hc
            rcases List.mem_append.mp hc with h | h
            · rcases List.mem_append.mp h with h | h
              · exact zeros_digit n c h
              · exact k1 c h
            · exact k1' c h
          · rw [List.append_assoc, hd0, List.append_assoc, decimal_zeros]
          · rw [hx]
        · exact absurd hrest hx
  · rintro ⟨neg, M, E, hv, ⟨sg, ip, ex, rfl, hs, hne, hi, hE, rfl⟩ | ⟨sg, ip, fp, ex, E', rfl, hs, hne, hd, hE, rfl, rfl⟩⟩
    · obtain ⟨x, k2, hx⟩ := expText_read hE
      have hh : ∀ c r, ex = c :: r → c ≠ '0' := by
        rintro c r rfl
        cases hE with
        | some hc _ _ _ => rcases hc with rfl | rfl <;> decide
      obtain ⟨n, ip', rfl, hsk⟩ := skipZeros_digits ip (r := ex) hh false
      have hi' : ∀ c ∈ ip', c.isDigit := fun c hc => hi c (by simp [hc])
      obtain ⟨a, r, har⟩ := List.exists_cons_of_ne_nil hne
      have ha := hi a (by rw [har]; simp)
      have hne' : (if decide (0 < n) = true then ['0'] else []) ++ ip' ≠ [] := by
        intro h0
        obtain ⟨a1, a2⟩ := List.append_eq_nil_iff.mp h0
        apply hne
        rcases Nat.eq_zero_or_pos n with rfl | hn
        · simp [a2]
        · simp [hn] at a1
      have hm : (decide (0 < n) || !ip'.isEmpty) = true := by
        rcases Nat.eq_zero_or_pos n with rfl | hn
        · cases ip' with
          | nil => simp at hne
          | cons _ _ => simp
        · simp [hn]
      have hid : ∀ c ∈ (if decide (0 < n) = true then ['0'] else []) ++ ip', c.isDigit = true := by
        intro c hc
        rcases List.mem_append.mp hc with h | h
        · split at h
          · rw [List.mem_singleton.mp h]; decide
          · cases h
        · exact hi' c h
      rw [signText_extract hs (by intro c r' h; rw [har] at h; simp at h; rw [← h.1]; exact digit_not_sign ha), hsk]
      simp only [Bool.false_or]
      rw [floatLoop_digits hi', floatLoop_exp_read k2 _ _ (fun _ => hm)]
      refine ⟨?_, rfl⟩
      dsimp only
      rw [← List.append_assoc (if decide (0 < n) = true then ['0'] else [])]
      unfold convertToV
      rw [strtod_whole hs hid k2 hne', hx]
      dsimp only
      rw [if_pos rfl, ← hv, decimal_zeros]
      congr 1
      split
      · exact decimal_zeros 1 ip'
      · rfl
    · obtain ⟨x, k2, hx⟩ := expText_read hE
      obtain ⟨n, ip', rfl, hsk⟩ := skipZeros_digits ip (r := '.' :: (fp ++ ex)) (by intro c r h; simp at h; rw [← h.1]; decide) false
      have hi' : ∀ c ∈ ip', c.isDigit := fun c hc => hd c (by simp [hc])
      have hf : ∀ c ∈ fp, c.isDigit := fun c hc => hd c (by simp [hc])
      have hne' : (if decide (0 < n) = true then ['0'] else []) ++ ip' ++ fp ≠ [] := by
        intro h0
        obtain ⟨a1, a3⟩ := List.append_eq_nil_iff.mp h0
        obtain ⟨a1, a2⟩ := List.append_eq_nil_iff.mp a1
        apply hne
        rcases Nat.eq_zero_or_pos n with rfl | hn
        · simp [a2, a3]
        · simp [hn] at a1
      have hm : (decide (0 < n) || !ip'.isEmpty || !fp.isEmpty) = true := by
        rcases Nat.eq_zero_or_pos n with rfl | hn
        · cases ip' with
          | nil =>
            cases fp with
            | nil => simp at hne
            | cons _ _ => simp
          | cons _ _ => simp
        · simp [hn]
      have hid : ∀ c ∈ (if decide (0 < n) = true then ['0'] else []) ++ ip', c.isDigit = true := by
        intro c hc
        rcases List.mem_append.mp hc with h | h
        · split at h
          · rw [List.mem_singleton.mp h]; decide
          · cases h
        · exact hi' c h
      rw [signText_extract hs (by
        intro c r' h
        cases hq : List.replicate n '0' ++ ip' with
        | nil => rw [hq] at h; simp at h; rw [← h.1]; decide
        | cons a q =>
          rw [hq] at h
          simp at h
          rw [← h.1]
          exact digit_not_sign (hd a (by rw [hq]; simp))), hsk]
      simp only [Bool.false_or]
      have hdot : floatLoop (decide (0 < n) || !ip'.isEmpty) false false ('.' :: (fp ++ ex)) = ('.' :: (fp ++ x), []) := by
        have e : floatLoop (decide (0 < n) || !ip'.isEmpty) false false ('.' :: (fp ++ ex)) =
            ('.' :: (floatLoop (decide (0 < n) || !ip'.isEmpty) true false (fp ++ ex)).1,
              (floatLoop (decide (0 < n) || !ip'.isEmpty) true false (fp ++ ex)).2) := by
          rw [floatLoop.eq_def]; simp
        rw [e, floatLoop_digits hf, floatLoop_exp_read k2 _ _ (fun _ => hm)]
      rw [floatLoop_digits hi', hdot]
      refine ⟨?_, rfl⟩
      dsimp only
      rw [← List.append_assoc (if decide (0 < n) = true then ['0'] else [])]
      unfold convertToV
      rw [strtod_point hs hid hf k2, if_neg hne', hx]
      dsimp only
      rw [if_pos rfl, ← hv, List.append_assoc, List.append_assoc, decimal_zeros]
      congr 1
      split
      · exact decimal_zeros 1 _
      · rfl

end Tinyfk
