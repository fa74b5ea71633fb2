import Verif.Model.ScalarTypes
import Verif.Spec.Numeric

/-!
# Specification vocabulary for fixed-point parameters

Values are rational numbers.
-/

namespace PF

/-- The rational number a double stands for. -/
def Dbl.val (d : Dbl) : Rat := (d.num : Rat) / (2 ^ d.k : Nat)

/-- A fixed-point type as the structure files can declare it (FixedPointParameterType.cpp:90-116
refuses a size smaller than the Q notation needs). -/
structure FixedType.WF (t : FixedType) : Prop where
  size : t.size = 1 ∨ t.size = 2 ∨ t.size = 4
  fits : t.integral + t.fractional + 1 ≤ 8 * t.size

/-- The declared real range of a Qn.m number: `-2^n .. 2^n - 2^-m`. -/
def FixedType.Real (t : FixedType) (q : Rat) : Prop :=
  -((2 ^ t.integral : Nat) : Rat) ≤ q ∧ q ≤ ((2 ^ t.integral : Nat) : Rat) - 1 / (2 ^ t.fractional : Nat)

/-- The representable values: multiples of `2^-m` in the range. -/
def FixedType.Representable (t : FixedType) (q : Rat) : Prop :=
  t.Real q ∧ ∃ r : Int, q = (r : Rat) / (2 ^ t.fractional : Nat)

/-- A decimal text `[-]digits[.digits]` and its value. -/
inductive DecimalText : Str → Rat → Prop
  | int {t n} : Numeral 10 t n → DecimalText t n
  | negInt {t n} : Numeral 10 t n → DecimalText ('-' :: t) (-(n : Rat))
  | frac {t u n m} : Numeral 10 t n → Numeral 10 u m →
      DecimalText (t ++ '.' :: u) ((n : Rat) + (m : Rat) / (10 ^ u.length : Nat))
  | negFrac {t u n m} : Numeral 10 t n → Numeral 10 u m →
      DecimalText ('-' :: (t ++ '.' :: u)) (-((n : Rat) + (m : Rat) / (10 ^ u.length : Nat)))

end PF
