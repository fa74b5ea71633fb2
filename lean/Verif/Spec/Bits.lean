import Verif.Model.BitParameter
import Verif.Spec.Scalar

/-! # Specification vocabulary for bit parameters -/

namespace PF

/-- A bit parameter type as the structure files can declare it: at least one bit, inside a block of
at most 64 bits, and a maximum that fits in the field. -/
structure BitType.WF (t : BitType) : Prop where
  some_bits : 1 ≤ t.bits
  fits : t.pos + t.bits ≤ 8 * t.blockSize
  block : t.blockSize ≤ 8
  max_fits : t.max.toNat < 2 ^ t.bits

/-- The number held by the bits `pos .. pos + bits - 1` of the little endian bytes. -/
def bitField (pos bits : Nat) (bs : List Byte) : Nat := decLE bs / 2 ^ pos % 2 ^ bits

/-- The two byte strings agree on every bit outside `pos .. pos + bits - 1`. -/
def SameBitsOutside (pos bits : Nat) (bs bs' : List Byte) : Prop :=
  bs'.length = bs.length ∧
  ∀ i, i < pos ∨ pos + bits ≤ i → (decLE bs').testBit i = (decLE bs).testBit i

/-- The number a text stands for in C notation: decimal without a leading zero, octal with one, or
hexadecimal with a prefix. -/
inductive CNumeral : Str → Nat → Prop
  | dec {t n} : Numeral 10 t n → t.head? ≠ some '0' → CNumeral t n
  | oct {t n} : Numeral 8 t n → t.head? = some '0' → CNumeral t n
  | hex {t n} : Numeral 16 t n → CNumeral ('0' :: 'x' :: t) n
  | hexUpper {t n} : Numeral 16 t n → CNumeral ('0' :: 'X' :: t) n

end PF
