import Verif.Model.Adaptation
import Verif.Spec.Scalar

/-!
# What an adaptation is expected to do

IEEE double precision, and the arithmetic of an integer parameter seen as a real number.
-/

namespace PF
namespace Spec

/-- The finite numbers of double precision: 53 significant bits, exponents from -1074 to 971. -/
def IsF64 (q : Rat) : Prop := ∃ (m : Int) (t : Nat), m.natAbs < 2 ^ 53 ∧ t ≤ 2045 ∧ q = m * 2 ^ t / 2 ^ 1074

/-- Half a unit of the last place beyond the largest of them: what is not below overflows. -/
def f64Limit : Rat := (2 ^ 54 - 1) * 2 ^ 970

/-- `v` is a result of an operation whose exact result is `q`: a number of double precision nearest to `q`.
(Of two nearest ones, the one with an even significand is taken: not part of this specification.) -/
def Rounds (q v : Rat) : Prop := |q| < f64Limit ∧ IsF64 v ∧ ∀ w, IsF64 w → |v - q| ≤ |w - q|

/-- `n` is the integer part of `q`, towards zero. -/
def IntPart (q : Rat) (n : Int) : Prop :=
  (0 ≤ q → (n : Rat) ≤ q ∧ q < n + 1) ∧ (q ≤ 0 → q ≤ n ∧ (n : Rat) - 1 < q)

/-- `n` fits a 64-bit integer. -/
def Fits64 (n : Int) : Prop := -2 ^ 63 ≤ n ∧ n < 2 ^ 63

/-- The integer `n` that a linear adaptation of slope `num / den` and offset `off` gives for the number `d`:
`d * num` rounded, divided by `den` and rounded, its integer part, and `off` added. -/
def LinearGives (num den : Rat) (off : Int) (d : Rat) (n : Int) : Prop :=
  ∃ x y, Rounds (d * num) x ∧ Rounds (x / den) y ∧ IntPart y (n - off) ∧ Fits64 (n - off) ∧ Fits64 n

/-- A step of this computation leaves the range of its type. -/
def LinearOverflows (num den : Rat) (off : Int) (d : Rat) : Prop :=
  f64Limit ≤ |d * num| ∨ ∃ x, Rounds (d * num) x ∧
    (f64Limit ≤ |x / den| ∨ ∃ y n, Rounds (x / den) y ∧ IntPart y n ∧ (¬ Fits64 n ∨ ¬ Fits64 (n + off)))

/-- The number `v` that a linear adaptation shows for the integer `n`: `(n - off) * den` rounded, divided by `num` and
rounded. -/
def LinearShows (num den : Rat) (off : Int) (n : Int) (v : Rat) : Prop :=
  ∃ x, Rounds ((n - off : Int) * den) x ∧ Rounds (x / num) v

/-- The memory of an integer parameter of type `t` at `off` holds `n`. -/
def HoldsInt (t : IntType) (b : Board) (off : Nat) (n : Int) : Prop :=
  ∃ bs, b.read off t.size = some bs ∧ memValue t.signed bs = n

/-- The value of an attribute read as a real number. -/
def RealAttr (rd : Reader) (x : SXml) (name : Str) (dflt v : F64) : Prop :=
  (x.attr name = none ∧ v = dflt) ∨ ∃ text d, x.attr name = some text ∧ rd.dbl text = some d ∧ v = .fin (d.num / 2 ^ d.k)

end Spec
end PF
