import Verif.Model.ScalarTypes
import Verif.Spec.Numeric

/-!
# Specification vocabulary for scalar parameters
-/

namespace PF

/-- Number of value bits of an integer type. -/
def IntType.bits (t : IntType) : Nat := 8 * t.size

/-- An integer type as the structure files can declare it: 8, 16 or 32 bits, bounds that fit in
the type, and a non-empty range (an empty one is refused when loading). -/
structure IntType.WF (t : IntType) : Prop where
  size : t.size = 1 ∨ t.size = 2 ∨ t.size = 4
  ordered : t.min ≤ t.max
  low : if t.signed then -(2 ^ (t.bits - 1) : Nat) ≤ t.min else 0 ≤ t.min
  high : if t.signed then t.max < (2 ^ (t.bits - 1) : Nat) else t.max < (2 ^ t.bits : Nat)

/-- The integer held by the bytes of a parameter: little endian, two's complement when signed. -/
def memValue (signed : Bool) (bs : List Byte) : Int :=
  if signed then Int.bmod (decLE bs) (2 ^ (8 * bs.length)) else (decLE bs : Int)

/-- `b'` is `b` except for the `size` bytes at `off`. -/
def SameOutside (b b' : Board) (off size : Nat) : Prop :=
  b'.length = b.length ∧ ∀ i, i < off ∨ off + size ≤ i → b'[i]? = b[i]?

/-! ## Enumerations -/

/-- The signed value fits in `size` bytes. -/
def FitsSigned (size : Nat) (n : Int) : Prop :=
  -(2 ^ (8 * size - 1) : Nat) ≤ n ∧ n < (2 ^ (8 * size - 1) : Nat)

/-- `n` is one of the numbers declared by the enum type. -/
def EnumType.Declared (t : EnumType) (n : Int) : Prop := ∃ p ∈ t.pairs, p.2.toInt = n

/-- The number a text selects: the integer it stands for when it is a 32-bit integer, else the
number declared (first) for the literal. -/
def EnumType.Selects (t : EnumType) (text : Str) (n : Int) : Prop :=
  (PlainInt text n ∧ FitsSigned 4 n) ∨
  ((¬ ∃ m, PlainInt text m ∧ FitsSigned 4 m) ∧
    ∃ before v after, t.pairs = before ++ (text, v) :: after ∧ (∀ p ∈ before, p.1 ≠ text) ∧
      v.toInt = n)

end PF
