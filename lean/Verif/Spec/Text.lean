/-!
# What text attributes say (specification)
-/

namespace Tinyfk

/-- only spaces -/
def Spaces (l : List Char) : Prop := ∀ c ∈ l, c = ' '

/-- `s` consists of the three non-empty words `a`, `b`, `c` (without spaces in them), separated by one or more
spaces, with any number of spaces before and after. -/
structure ThreeWords (s a b c : String) : Prop where
  word : ∀ w ∈ [a, b, c], w.toList ≠ [] ∧ ' ' ∉ w.toList
  text : ∃ p q r t : List Char, Spaces p ∧ Spaces q ∧ Spaces r ∧ Spaces t ∧ q ≠ [] ∧ r ≠ [] ∧
    s.toList = p ++ a.toList ++ q ++ b.toList ++ r ++ c.toList ++ t

/-- the number a string of decimal digits denotes -/
def decimal : List Char → Nat
  | [] => 0
  | c :: cs => (c.toNat - '0'.toNat) * 10 ^ cs.length + decimal cs

/-- `t` is an integer as the version attribute is read: white space, an optional sign, decimal digits, nothing after
them. A minus sign is accepted only before a zero. The value is cut off at 2^63 - 1 and then **reduced modulo 2^32**. -/
def UnsignedText (t : List Char) (n : Nat) : Prop :=
  ∃ ws sign ds : List Char, t = ws ++ sign ++ ds ∧ (∀ c ∈ ws, c ∈ [' ', '\t', '\n', '\x0b', '\x0c', '\r']) ∧
    (sign = [] ∨ sign = ['+'] ∨ (sign = ['-'] ∧ decimal ds = 0)) ∧ ds ≠ [] ∧ (∀ c ∈ ds, c.isDigit) ∧
    n = min (decimal ds) (2 ^ 63 - 1) % 2 ^ 32

/-- `s` is the version `major.minor` as the version attribute is read; one more dot at the end is ignored. -/
def VersionText (s : String) (major minor : Nat) : Prop :=
  ∃ a b : List Char, (s.toList = a ++ '.' :: b ∨ s.toList = a ++ '.' :: b ++ ['.']) ∧ '.' ∉ a ∧ '.' ∉ b ∧
    UnsignedText a major ∧ UnsignedText b minor

end Tinyfk
