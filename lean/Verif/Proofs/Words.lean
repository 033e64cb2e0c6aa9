import Verif.Model.Xml
import Verif.Spec.Text

/-!
# Splitting at spaces
-/

namespace Tinyfk

variable {sep : Char → Bool}

theorem splitFrom_append {w : List Char} (hw : ∀ c ∈ w, sep c = false) (cur l : List Char) :
    splitFrom sep cur (w ++ l) = splitFrom sep (cur ++ w) l := by
  induction w generalizing cur with
  | nil => simp
  | cons c w ih =>
    have h1 := hw c (by simp)
    rw [List.cons_append, splitFrom, h1]
    simp only [Bool.false_eq_true, if_false]
    rw [ih (fun d hd => hw d (by simp [hd]))]
    simp

/-- the non-empty pieces of `l` -/
def wordsOf (l : List Char) : List (List Char) :=
  (splitString (fun c => c == ' ') l).filter (fun p => !p.isEmpty)

theorem wordsOf_spaces {p : List Char} (hp : Spaces p) (l : List Char) : wordsOf (p ++ l) = wordsOf l := by
  induction p with
  | nil => rfl
  | cons c p ih =>
    have h1 := hp c (by simp)
    subst h1
    rw [← ih (fun d hd => hp d (by simp [hd]))]
    simp [wordsOf, splitString, splitFrom]

theorem wordsOf_word {w : List Char} (hw : w ≠ [] ∧ ' ' ∉ w) : wordsOf w = [w] := by
  have := splitFrom_append (sep := fun c => c == ' ') (w := w)
    (fun c hc => by simp; rintro rfl; exact hw.2 hc) [] []
  simp only [List.append_nil, List.nil_append] at this
  simp [wordsOf, splitString, this, splitFrom, hw.1]

theorem wordsOf_cons {w : List Char} (hw : w ≠ [] ∧ ' ' ∉ w) (l : List Char) :
    wordsOf (w ++ ' ' :: l) = w :: wordsOf l := by
  have := splitFrom_append (sep := fun c => c == ' ') (w := w)
    (fun c hc => by simp; rintro rfl; exact hw.2 hc) [] (' ' :: l)
  simp only [List.nil_append] at this
  simp [wordsOf, splitString, this, splitFrom, hw.1]

theorem wordsOf_nil {l : List Char} (h : Spaces l) : wordsOf l = [] := by
  have := wordsOf_spaces h []
  rw [List.append_nil] at this
  rw [this]
  rfl

/-- every text is spaces, or spaces, a word, and the rest -/
theorem word_cases (l : List Char) :
    Spaces l ∨ ∃ p w : List Char, Spaces p ∧ (w ≠ [] ∧ ' ' ∉ w) ∧ (l = p ++ w ∨ ∃ r, l = p ++ w ++ ' ' :: r) := by
  induction l with
  | nil => exact .inl (by simp [Spaces])
  | cons c l ih =>
    by_cases hc : c = ' '
    · subst hc
      rcases ih with h | ⟨p, w, hp, hw, h⟩
      · exact .inl (by simpa [Spaces] using h)
      · refine .inr ⟨' ' :: p, w, by simpa [Spaces] using hp, hw, ?_⟩
        rcases h with h | ⟨r, h⟩
        · exact .inl (by simp [h])
        · exact .inr ⟨r, by simp [h]⟩
    · have hc' : ¬ ' ' = c := fun h => hc h.symm
      rcases ih with h | ⟨p, w, hp, hw, h⟩
      · cases l with
        | nil => exact .inr ⟨[], [c], by simp [Spaces], by simpa using hc', .inl rfl⟩
        | cons d l =>
          have := h d (by simp)
          subst this
          exact .inr ⟨[], [c], by simp [Spaces], by simpa using hc', .inr ⟨l, rfl⟩⟩
      · cases p with
        | nil =>
          refine .inr ⟨[], c :: w, by simp [Spaces], ⟨by simp, by simp [hc', hw.2]⟩, ?_⟩
          rcases h with h | ⟨r, h⟩
          · exact .inl (by simp [h])
          · exact .inr ⟨r, by simp [h]⟩
        | cons d p =>
          have := hp d (by simp)
          subst this
          refine .inr ⟨[], [c], by simp [Spaces], by simpa using hc', .inr ?_⟩
          rcases h with h | ⟨r, h⟩
          · exact ⟨p ++ w, by simp [h]⟩
          · exact ⟨p ++ w ++ ' ' :: r, by simp [h]⟩

theorem wordsOf_eq_nil {l : List Char} (h : wordsOf l = []) : Spaces l := by
  rcases word_cases l with h1 | ⟨p, w, hp, hw, h1 | ⟨r, h1⟩⟩
  · exact h1
  · rw [h1, wordsOf_spaces hp, wordsOf_word hw] at h; simp at h
  · rw [h1, List.append_assoc, wordsOf_spaces hp, wordsOf_cons hw] at h; simp at h

theorem wordsOf_eq_cons {l w : List Char} {ws : List (List Char)} (h : wordsOf l = w :: ws) :
    ∃ p, Spaces p ∧ (w ≠ [] ∧ ' ' ∉ w) ∧ ((l = p ++ w ∧ ws = []) ∨ ∃ r, l = p ++ w ++ ' ' :: r ∧ wordsOf r = ws) := by
  rcases word_cases l with h1 | ⟨p, w', hp, hw, h1 | ⟨r, h1⟩⟩
  · rw [wordsOf_nil h1] at h; simp at h
  · have h' := h
    rw [h1, wordsOf_spaces hp, wordsOf_word hw] at h'
    simp only [List.cons.injEq] at h'
    exact ⟨p, hp, h'.1 ▸ hw, .inl ⟨h'.1 ▸ h1, h'.2.symm⟩⟩
  · have h' := h
    rw [h1, List.append_assoc, wordsOf_spaces hp, wordsOf_cons hw] at h'
    simp only [List.cons.injEq] at h'
    exact ⟨p, hp, h'.1 ▸ hw, .inr ⟨r, h'.1 ▸ h1, h'.2⟩⟩

/-- the words are three exactly when the text consists of three words -/
theorem wordsOf_three (s a b c : String) :
    wordsOf s.toList = [a.toList, b.toList, c.toList] ↔ ThreeWords s a b c := by
  constructor
  · intro h
    obtain ⟨p, hp, ha, h1 | ⟨r1, h1, e1⟩⟩ := wordsOf_eq_cons h
    · simp at h1
    obtain ⟨q, hq, hb, h2 | ⟨r2, h2, e2⟩⟩ := wordsOf_eq_cons e1
    · simp at h2
    obtain ⟨r, hr, hc, h3 | ⟨r3, h3, e3⟩⟩ := wordsOf_eq_cons e2
    · exact ⟨by simp_all, p, ' ' :: q, ' ' :: r, [], hp, by simpa [Spaces] using hq, by simpa [Spaces] using hr,
        by simp [Spaces], by simp, by simp, by rw [h1, h2, h3.1]; simp⟩
    · have := wordsOf_eq_nil e3
      exact ⟨by simp_all, p, ' ' :: q, ' ' :: r, ' ' :: r3, hp, by simpa [Spaces] using hq, by simpa [Spaces] using hr,
        by simpa [Spaces] using this, by simp, by simp, by rw [h1, h2, h3]; simp⟩
  · rintro ⟨hw, p, q, r, t, hp, hq, hr, ht, q0, r0, e⟩
    have ha := hw a (by simp)
    have hb := hw b (by simp)
    have hc := hw c (by simp)
    obtain ⟨q1, q2, rfl⟩ := List.exists_cons_of_ne_nil q0
    obtain ⟨r1, r2, rfl⟩ := List.exists_cons_of_ne_nil r0
    have e1 := hq q1 (by simp)
    have e2 := hr r1 (by simp)
    subst e1 e2
    rw [e]
    simp only [List.append_assoc, List.cons_append]
    rw [wordsOf_spaces hp, wordsOf_cons ha, wordsOf_spaces (fun d hd => hq d (by simp [hd])), wordsOf_cons hb,
      wordsOf_spaces (fun d hd => hr d (by simp [hd]))]
    cases t with
    | nil => rw [List.append_nil, wordsOf_word hc]
    | cons d t =>
      have := ht d (by simp)
      subst this
      rw [wordsOf_cons hc, wordsOf_nil (fun d hd => ht d (by simp [hd]))]

end Tinyfk
