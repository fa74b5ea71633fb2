import Verif.Model.Tokenizer

/-!
# Model of the conversions between texts and integers

`utility/convert.hpp`, `utility/Utility.cpp`, and the standard library functions they use
(`std::istream >> integer`, `std::ostream << integer`, `strtoull`).
-/

namespace PF

/-- Value of a digit character in a base (10, 16 or 8), as accepted by `num_get`. -/
def digitVal (base : Nat) (c : Char) : Option Nat :=
  let v :=
    if '0' ≤ c ∧ c ≤ '9' then some (c.toNat - '0'.toNat)
    else if 'a' ≤ c ∧ c ≤ 'f' then some (c.toNat - 'a'.toNat + 10)
    else if 'A' ≤ c ∧ c ≤ 'F' then some (c.toNat - 'A'.toNat + 10)
    else none
  match v with
  | some d => if d < base then some d else none
  | none => none

/-- Positional value of a text made only of digits, starting from `acc`; `none` if some
character is not a digit. -/
def digitsVal (base : Nat) : (acc : Nat) → Str → Option Nat
  | acc, [] => some acc
  | acc, c :: cs =>
    match digitVal base c with
    | none => none
    | some d => digitsVal base (acc * base + d) cs

/-- A non-empty digit text. -/
def parseNat (base : Nat) (t : Str) : Option Nat :=
  if t = [] then none else digitsVal base 0 t

/-- White space refused by `convertTo` (convert.hpp:125-127). -/
def convertSpaces : List Char := ['\r', '\n', '\t', Char.ofNat 11, ' ']

/-- `convertTo<T>` for an integer type `T` of `bits` bits (convert.hpp:117-152, and 154-177 for
the 8-bit types, whose detour through a wider type gives the same range check).

`std::istream >> T` reads an optional sign and digits, fails on overflow, and the conversion
requires that the whole text is read.  Not modelled: libstdc++ also accepts a repeated prefix
such as `0x0x5`. -/
def convertTo (signed : Bool) (bits : Nat) (t : Str) : Option Int :=
  if t.any (fun c => decide (c ∈ convertSpaces)) then none
  else if decide ('-' ∈ t) && !signed then none
  else
    let inRange (n : Int) : Option Int :=
      if signed then
        if -(2 ^ (bits - 1) : Nat) ≤ n ∧ n < (2 ^ (bits - 1) : Nat) then some n else none
      else if n < (2 ^ bits : Nat) then some n else none
    if t.take 2 = ['0', 'x'] then
      match parseNat 16 (t.drop 2) with
      | none => none
      | some n => inRange (n : Int)
    else
      match t with
      | '+' :: ds => match parseNat 10 ds with
        | none => none
        | some n => inRange (n : Int)
      | '-' :: ds => match parseNat 10 ds with
        | none => none
        | some n => inRange (-(n : Int))
      | ds => match parseNat 10 ds with
        | none => none
        | some n => inRange (n : Int)

/-- `utility::isHexadecimal` (utility/Utility.cpp:60-63). -/
def isHexadecimal (t : Str) : Bool :=
  decide (t.take 2 = ['0', 'x']) || decide (t.take 2 = ['0', 'X'])

/-- Character of a digit (upper case, `std::uppercase`). -/
def digitChar (d : Nat) : Char :=
  if d < 10 then Char.ofNat (d + 48) else Char.ofNat (d - 10 + 65)

/-- Digits of a number, most significant first, at least one (`std::ostream << integer`).
`fuel` larger than the number is always enough. -/
def natDigits (base : Nat) : (fuel : Nat) → Nat → Str
  | 0, _ => []
  | fuel + 1, n =>
    if n < base then [digitChar n] else natDigits base fuel (n / base) ++ [digitChar (n % base)]

/-- Decimal text of a natural number. -/
def natText (n : Nat) : Str := natDigits 10 (n + 1) n

/-- Decimal text of an integer (`std::ostream << int`, `std::to_string`). -/
def intText (n : Int) : Str :=
  if n < 0 then '-' :: natText n.natAbs else natText n.natAbs

/-- `"0x" << std::hex << std::uppercase << std::setw(width) << std::setfill('0') << n`. -/
def hexText (width n : Nat) : Str :=
  let ds := natDigits 16 (n + 1) n
  ['0', 'x'] ++ List.replicate (width - ds.length) '0' ++ ds

/-- White space skipped by `strtoull` (`isspace` in the C locale). -/
def cSpaces : List Char := [' ', '\n', '\t', Char.ofNat 11, Char.ofNat 12, '\r']

/-- Longest prefix of digits. -/
def digitPrefix (base : Nat) : Str → Str
  | [] => []
  | c :: cs => if (digitVal base c).isSome then c :: digitPrefix base cs else []

/-- An optional sign, as `strtoull` reads it. -/
def splitSign : Str → Bool × Str
  | '-' :: r => (true, r)
  | '+' :: r => (false, r)
  | r => (false, r)

/-- The digits, as `strtoull` with base 0 reads them: a prefix `0x`/`0X` (base 16, if followed by a
digit) or `0` (base 8), then the longest digit prefix; no digit gives 0. -/
def cMagnitude (t : Str) : Nat :=
  if (t.take 2 = ['0', 'x'] ∨ t.take 2 = ['0', 'X']) ∧ digitPrefix 16 (t.drop 2) ≠ [] then
    (digitsVal 16 0 (digitPrefix 16 (t.drop 2))).getD 0
  else if t.take 1 = ['0'] then (digitsVal 8 0 (digitPrefix 8 t)).getD 0
  else (digitsVal 10 0 (digitPrefix 10 t)).getD 0

/-- `strtoull(text, nullptr, 0)` (used by BitParameterType.cpp:130): skips white space, reads an
optional sign and the digits; overflow gives the maximum; a minus sign negates modulo 2^64. -/
def strtoull (t : Str) : BitVec 64 :=
  let r := splitSign (t.dropWhile (fun c => decide (c ∈ cSpaces)))
  let n := cMagnitude r.2
  if n < 2 ^ 64 then (if r.1 then -(BitVec.ofNat 64 n) else BitVec.ofNat 64 n)
  else BitVec.allOnes 64

end PF
