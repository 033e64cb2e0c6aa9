import Verif.Model.Xml

/-!
# Reading a number: `strToDouble`

`utils.h` reads a number with `operator>>` of a stream in the classic locale. The operator is part of the C++ library
(GCC 13); the two functions it consists of are modelled after `bits/locale_facets.tcc`, and `strtod` after the C
standard. `rnd neg M E` is the `double` nearest to `±M·10^E`, `none` if that is infinite.
-/

namespace Tinyfk

variable {K : Type}

/-- locale_facets.tcc:180-204 leading zeros: whether there was one, and the rest -/
def skipZeros (found : Bool) : List Char → Bool × List Char
  | [] => (found, [])
  | c :: cs => if c = '0' then skipZeros true cs else (found, c :: cs)

/-- locale_facets.tcc:206-261 the loop over the digits in the "C" locale: what is appended to `__xtrc`, and the
unread rest. `mant`, `dec`, `sci` are `__found_mantissa`, `__found_dec`, `__found_sci`. -/
def floatLoop (mant dec sci : Bool) : List Char → List Char × List Char
  | [] => ([], [])
  | c :: cs =>
    if c.isDigit then
      let a := floatLoop true dec sci cs
      (c :: a.1, a.2)
    else if c = '.' ∧ dec = false ∧ sci = false then
      let a := floatLoop mant true sci cs
      ('.' :: a.1, a.2)
    else if (c = 'e' ∨ c = 'E') ∧ sci = false ∧ mant = true then
      match cs with
      | [] => (['e'], [])
      | s :: cs' =>
        if s = '+' ∨ s = '-' then
          let a := floatLoop mant dec true cs'
          ('e' :: s :: a.1, a.2)
        else
          let a := floatLoop mant dec true (s :: cs')
          ('e' :: a.1, a.2)
    else ([], c :: cs)

/-- locale_facets.tcc:149-368 `_M_extract_float`: the characters of the number and the unread rest. The classic locale
has no grouping. -/
def extractFloat (s : List Char) : List Char × List Char :=
  let sg : List Char × List Char :=
    match s with
    | '+' :: t => (['+'], t)
    | '-' :: t => (['-'], t)
    | t => ([], t)
  let z := skipZeros false sg.2
  let a := floatLoop z.1 false false z.2
  (sg.1 ++ (if z.1 then ['0'] else []) ++ a.1, a.2)

/-- the optional exponent of `strtod`: its value and the rest -/
def expPart : List Char → Int × List Char
  | [] => (0, [])
  | c :: t =>
    if c = 'e' ∨ c = 'E' then
      let sg := signOf t
      let ds := sg.2.takeWhile Char.isDigit
      if ds = [] then (0, c :: t)
      else (if sg.1 then -(digitsVal ds : Int) else digitsVal ds, sg.2.dropWhile Char.isDigit)
    else (0, c :: t)

/-- the optional point of `strtod` and the digits after it, and the rest -/
def fracPart : List Char → List Char × List Char
  | '.' :: t => (t.takeWhile Char.isDigit, t.dropWhile Char.isDigit)
  | t => ([], t)

/-- `strtod` on decimal text: sign, the digits as one number, the power of ten, and the rest at `endptr`; `none` when
nothing could be converted. Hexadecimal numbers, infinities and NaN are left out: `extractFloat` never
extracts their letters. -/
def strtod (s : List Char) : Option ((Bool × Nat × Int) × List Char) :=
  let sg := signOf (s.dropWhile isCSpace)
  let ip := sg.2.takeWhile Char.isDigit
  let fp := fracPart (sg.2.dropWhile Char.isDigit)
  if ip = [] ∧ fp.1 = [] then none
  else
    let ex := expPart fp.2
    some ((sg.1, digitsVal (ip ++ fp.1), ex.1 - (fp.1.length : Int)), ex.2)

/-- c++locale `__convert_to_v`: the whole text must be converted, and the result must be finite; `none` sets
`failbit` -/
def convertToV (rnd : Bool → Nat → Int → Option K) (s : List Char) : Option K :=
  match strtod s with
  | none => none
  | some (v, rest) => if rest = [] then rnd v.1 v.2.1 v.2.2 else none

/-- utils.h:73-89 `strToDouble`; `none` is a thrown `runtime_error`. The argument is a C string: it ends at the first
NUL. White space at the beginning is skipped by the sentry of `operator>>`. -/
def strToDouble (rnd : Bool → Nat → Int → Option K) (s : String) : Option K :=
  match (s.toList.takeWhile (fun c => c != '\x00')).dropWhile isCSpace with
  | [] => none
  | t =>
    match convertToV rnd (extractFloat t).1 with
    | none => none
    | some v => if (extractFloat t).2 = [] then some v else none

end Tinyfk
