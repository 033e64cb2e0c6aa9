import Verif.Spec.Text

/-!
# What a number in an attribute is (specification)
-/

namespace Tinyfk

/-- `t` is the C string at the beginning of `s`: everything up to the first NUL -/
def CText (s t : List Char) : Prop := '\x00' ∉ t ∧ (s = t ∨ ∃ r, s = t ++ '\x00' :: r)

/-- an optional sign -/
inductive SignText : List Char → Bool → Prop
  | none : SignText [] false
  | plus : SignText ['+'] false
  | minus : SignText ['-'] true

/-- an optional exponent: `e` or `E`, an optional sign, at least one digit -/
inductive ExpText : List Char → Int → Prop
  | none : ExpText [] 0
  | some {c : Char} {sg ds : List Char} {neg : Bool} : c = 'e' ∨ c = 'E' → SignText sg neg → ds ≠ [] →
      (∀ c ∈ ds, c.isDigit) → ExpText (c :: (sg ++ ds)) (if neg then -(decimal ds : Int) else decimal ds)

/-- `t` is the decimal number `±M·10^E`: white space, an optional sign, digits with an optional point before, between or
after them (at least one digit), an optional exponent, **nothing after that**. -/
inductive NumText : List Char → Bool → Nat → Int → Prop
  | whole {ws sg ip ex : List Char} {neg : Bool} {E : Int} :
      (∀ c ∈ ws, c ∈ [' ', '\t', '\n', '\x0b', '\x0c', '\r']) → SignText sg neg → ip ≠ [] → (∀ c ∈ ip, c.isDigit) →
      ExpText ex E → NumText (ws ++ (sg ++ (ip ++ ex))) neg (decimal ip) E
  | point {ws sg ip fp ex : List Char} {neg : Bool} {E : Int} :
      (∀ c ∈ ws, c ∈ [' ', '\t', '\n', '\x0b', '\x0c', '\r']) → SignText sg neg → ip ++ fp ≠ [] →
      (∀ c ∈ ip ++ fp, c.isDigit) → ExpText ex E →
      NumText (ws ++ (sg ++ (ip ++ '.' :: (fp ++ ex)))) neg (decimal (ip ++ fp)) (E - fp.length)

end Tinyfk
