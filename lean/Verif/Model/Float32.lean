import Verif.Model.Numeric

/-!
# Single-precision numbers

The `float` of `parameter/FloatingPointParameterType.cpp`: IEEE 754 binary32, as on every platform the
framework is built for.  A `float` is its 32 bits (`utility::binaryCopy`, BinaryCopy.hpp); its value is a
multiple of `2^-149`.
-/

namespace PF

/-- A finite double, `num / 2^k`.  Every finite IEEE double has this form, and the operations of
the fixed-point code on them (scaling by a power of two, comparison, rounding) are exact.  The two zeros
are not told apart. -/
structure Dbl where
  num : Int
  k : Nat
deriving Repr, DecidableEq

/-- The readers of real numbers: `convertTo<double>` and `convertTo<float>` (convert.hpp:117-152, 249-290), left
uninterpreted: the result of `std::istream >> double` depends on the C++ library.  `none` is a refused text. -/
structure Reader where
  dbl : Str → Option Dbl
  flt : Str → Option (BitVec 32)

/-- A reader that refuses every text. -/
def Reader.none : Reader := ⟨fun _ => Option.none, fun _ => Option.none⟩

/-- The exponent field. -/
def f32Exp (v : BitVec 32) : Nat := v.toNat / 2 ^ 23 % 256

/-- The fraction field. -/
def f32Man (v : BitVec 32) : Nat := v.toNat % 2 ^ 23

/-- `std::isfinite`. -/
def f32Finite (v : BitVec 32) : Bool := f32Exp v != 255

/-- The absolute value of a finite number, in units of `2^-149`. -/
def f32Mag (v : BitVec 32) : Nat :=
  if f32Exp v = 0 then f32Man v else (2 ^ 23 + f32Man v) * 2 ^ (f32Exp v - 1)

/-- A finite number, in units of `2^-149`. -/
def f32Units (v : BitVec 32) : Int := if v.msb then -(f32Mag v : Int) else f32Mag v

/-- `std::numeric_limits<float>::max()`, in units of `2^-149`. -/
def f32MaxUnits : Nat := (2 ^ 24 - 1) * 2 ^ 253

/-- The bits of the number of absolute value `n * 2^-149`. -/
def f32OfMag (neg : Bool) (n : Nat) : BitVec 32 :=
  let low := if n < 2 ^ 23 then n else (n.log2 - 22) * 2 ^ 23 + (n / 2 ^ (n.log2 - 23) - 2 ^ 23)
  BitVec.ofNat 32 (if neg then 2 ^ 31 + low else low)

/-- `a / b` rounded to the nearest integer, to the even one of two nearest. -/
def roundEven (a b : Nat) : Nat :=
  if 2 * (a % b) < b then a / b
  else if 2 * (a % b) > b then a / b + 1
  else if a / b % 2 = 0 then a / b
  else a / b + 1

/-- `a / b` units rounded to 24 significant bits, to nearest, ties to even. -/
def f32RoundMag (a b : Nat) : Nat :=
  if a / b < 2 ^ 24 then roundEven a b
  else roundEven a (b * 2 ^ ((a / b).log2 - 23)) * 2 ^ ((a / b).log2 - 23)

/-- `static_cast<float>` of a double that no float overflow threatens: to nearest, ties to even (the
default rounding mode). -/
def f32OfDbl (d : Dbl) : BitVec 32 := f32OfMag (decide (d.num < 0)) (f32RoundMag (d.num.natAbs * 2 ^ 149) (2 ^ d.k))

/-- A finite `float` converted to `double`. -/
def f32ToDbl (v : BitVec 32) : Dbl := ⟨f32Units v, 149⟩

/-- The decimal exponent of `n * 2^-149`: the largest `x` with `10^x ≤ n * 2^-149`, counted from -45, so that
`decExp n - 45` is the exponent.  `n` is not 0 and below `10^39 * 2^149`. -/
def decExp (n : Nat) : Nat :=
  ((List.range 84).reverse.find? fun i => decide (10 ^ i * 2 ^ 149 ≤ n * 10 ^ 45)).getD 0

/-- Six decimal digits of `n * 2^-149`, rounded to nearest (ties to even), and the exponent of the first one,
counted from -45: the `%e` conversion with precision 5. -/
def sixDigits (n : Nat) : Nat × Nat :=
  let x := decExp n
  let d := roundEven (n * 10 ^ 50) (10 ^ x * 2 ^ 149)
  if d = 10 ^ 6 then (10 ^ 5, x + 1) else (d, x)

/-- Digits without the zeros at their end. -/
def dropZeros (t : Str) : Str := (t.reverse.dropWhile (· = '0')).reverse

/-- A decimal part, without the zeros at its end, and without the point if nothing is left. -/
def pointPart (t : Str) : Str := if dropZeros t = [] then [] else '.' :: dropZeros t

/-- Exactly `m` decimal digits. -/
def fracDigits : (m : Nat) → Nat → Str
  | 0, _ => []
  | m + 1, n => fracDigits m (n / 10) ++ [digitChar (n % 10)]

/-- An exponent: a sign and at least two digits. -/
def expText (x : Int) : Str :=
  (if x < 0 then ['-'] else ['+']) ++ (if x.natAbs < 10 then ['0'] else []) ++ natText x.natAbs

/-- `stream << value` for a `float`, with the default format: `%g` with precision 6. -/
def f32Text (v : BitVec 32) : Str :=
  let sign : Str := if v.msb then ['-'] else []
  if !f32Finite v then sign ++ (if f32Man v = 0 then s "inf" else s "nan")
  else if f32Mag v = 0 then sign ++ s "0"
  else
    let digits := fracDigits 6 (sixDigits (f32Mag v)).1
    let x : Int := (sixDigits (f32Mag v)).2 - 45
    if x < -4 ∨ x ≥ 6 then
      sign ++ digits.take 1 ++ pointPart (digits.drop 1) ++ 'e' :: expText x
    else if x < 0 then
      sign ++ '0' :: pointPart (List.replicate (x.natAbs - 1) '0' ++ digits)
    else
      sign ++ digits.take (x.toNat + 1) ++ pointPart (digits.drop (x.toNat + 1))

end PF
