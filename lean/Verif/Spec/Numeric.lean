import Verif.Model.Tokenizer

/-!
# What a numeric text denotes

Independent of the parsing code.
-/

namespace PF

/-- The digit characters and their values. -/
def digitTable : List (Char × Nat) :=
  [('0', 0), ('1', 1), ('2', 2), ('3', 3), ('4', 4), ('5', 5), ('6', 6), ('7', 7), ('8', 8),
   ('9', 9), ('a', 10), ('b', 11), ('c', 12), ('d', 13), ('e', 14), ('f', 15),
   ('A', 10), ('B', 11), ('C', 12), ('D', 13), ('E', 14), ('F', 15)]

/-- `c` is the digit `d` of base `base`. -/
def IsDigit (base : Nat) (c : Char) (d : Nat) : Prop := d < base ∧ (c, d) ∈ digitTable

/-- The text is a non-empty sequence of digits, and its positional value is the number. -/
inductive Numeral (base : Nat) : Str → Nat → Prop
  | single {c d} : IsDigit base c d → Numeral base [c] d
  | more {t n c d} : Numeral base t n → IsDigit base c d → Numeral base (t ++ [c]) (n * base + d)

/-- The integer a text stands for, as a value of a signed or unsigned type of `bits` bits:
an optionally signed decimal number (`-` only for signed types), or `0x` and hexadecimal digits
giving the bit pattern of the value. -/
inductive Denotes (signed : Bool) (bits : Nat) : Str → Int → Prop
  | dec {t n} : Numeral 10 t n → Denotes signed bits t n
  | plus {t n} : Numeral 10 t n → Denotes signed bits ('+' :: t) n
  | minus {t n} : signed = true → Numeral 10 t n → Denotes signed bits ('-' :: t) (-n)
  | hexUnsigned {t n} : signed = false → Numeral 16 t n → Denotes signed bits ('0' :: 'x' :: t) n
  | hexPositive {t n} : signed = true → Numeral 16 t n → n < 2 ^ (bits - 1) →
      Denotes signed bits ('0' :: 'x' :: t) n
  | hexNegative {t n} : signed = true → Numeral 16 t n → 2 ^ (bits - 1) ≤ n → n < 2 ^ bits →
      Denotes signed bits ('0' :: 'x' :: t) ((n : Int) - (2 ^ bits : Nat))

/-- A text that stands for an integer in itself: optionally signed decimal, or `0x` hexadecimal. -/
inductive PlainInt : Str → Int → Prop
  | dec {t n} : Numeral 10 t n → PlainInt t n
  | plus {t n} : Numeral 10 t n → PlainInt ('+' :: t) n
  | minus {t n} : Numeral 10 t n → PlainInt ('-' :: t) (-n)
  | hex {t n} : Numeral 16 t n → PlainInt ('0' :: 'x' :: t) n

end PF
