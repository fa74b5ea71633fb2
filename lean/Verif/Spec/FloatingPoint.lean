import Verif.Spec.FixedPoint
import Mathlib.Algebra.Order.Field.Rat

/-!
# Specification vocabulary for single-precision numbers

The bits of a `float` and the rational number they stand for (IEEE 754 binary32).
-/

namespace PF.Spec

/-- The bits are those of a finite number: the exponent field is not all ones. -/
def F32Finite (v : BitVec 32) : Prop := v.toNat / 2 ^ 23 % 256 ≠ 255

instance (v : BitVec 32) : Decidable (F32Finite v) := inferInstanceAs (Decidable (_ ≠ _))

/-- The value of a finite number: sign, 8 bits of exponent with bias 127 and 23 bits of fraction, with an
implicit leading one except for exponent 0. -/
def f32Val (v : BitVec 32) : Rat :=
  let e : Nat := v.toNat / 2 ^ 23 % 256
  let f : Nat := v.toNat % 2 ^ 23
  (if v.toNat < 2 ^ 31 then 1 else -1) *
    (if e = 0 then (f : Rat) / 2 ^ 149 else ((2 ^ 23 + f : Nat) : Rat) * 2 ^ e / 2 ^ 150)

/-- `v` is a finite number nearest to `q`, the one with an even fraction if there are two. -/
structure Nearest (q : Rat) (v : BitVec 32) : Prop where
  finite : F32Finite v
  nearest : ∀ w, F32Finite w → |f32Val v - q| ≤ |f32Val w - q|
  even : ∀ w, F32Finite w → |f32Val w - q| = |f32Val v - q| → f32Val w ≠ f32Val v → v.toNat % 2 = 0

/-- A text `[-]digits[.digits][e(+|-)digits]` and its value. -/
inductive RealText : Str → Rat → Prop
  | plain {t q} : DecimalText t q → RealText t q
  | exp {t q u n} : DecimalText t q → Numeral 10 u n → RealText (t ++ 'e' :: '+' :: u) (q * 10 ^ n)
  | negExp {t q u n} : DecimalText t q → Numeral 10 u n → RealText (t ++ 'e' :: '-' :: u) (q / 10 ^ n)

/-- `q` is `x` rounded to six significant decimal digits: it has six digits, and `x` is at most half a unit of
the sixth one away; zero is itself. -/
def SixDigits (x q : Rat) : Prop :=
  (x = 0 ∧ q = 0) ∨
  ∃ m e : Int, 10 ^ 5 ≤ |m| ∧ |m| < 10 ^ 6 ∧ q = m * (10 : Rat) ^ e ∧ |x - q| ≤ (10 : Rat) ^ e / 2

/-- `out` is the hexadecimal text of the bits `n` of a floating-point parameter: the zeros that make it eight
characters long come before the prefix, and zero has no prefix. -/
def FloatHex (n : Nat) (out : Str) : Prop :=
  (n = 0 ∧ out = s "00000000") ∨
  (0 < n ∧ ∃ ds, Numeral 16 ds n ∧ ds.head? ≠ some '0' ∧
    out = List.replicate (6 - ds.length) '0' ++ '0' :: 'x' :: ds)

/-- The largest single-precision number. -/
def f32Max : Rat := (2 ^ 24 - 1) * 2 ^ 104

/-- A floating-point type as the structure files can declare it: bounds that are numbers, in order. -/
structure FloatWF (t : FloatType) : Prop where
  min : F32Finite t.min
  max : F32Finite t.max
  order : f32Val t.min ≤ f32Val t.max

/-- The bits are those of a number of the declared range. -/
def FloatAllows (t : FloatType) (v : BitVec 32) : Prop :=
  F32Finite v ∧ f32Val t.min ≤ f32Val v ∧ f32Val v ≤ f32Val t.max

/-- The bits in four bytes of memory, the least significant one first. -/
def f32Mem (bs : List Byte) : BitVec 32 := BitVec.ofNat 32 (decLE bs)

end PF.Spec
