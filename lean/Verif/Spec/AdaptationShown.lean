import Verif.Model.AdaptationShown
import Verif.Spec.Properties
import Verif.Spec.FixedPoint

/-! # Specification of the properties shown of an adaptation -/

namespace PF.Spec

/-- `t` is, in decimal, a whole number of millionths at most half a millionth away from `q`. -/
def ShowsNear (t : Str) (q : Rat) : Prop :=
  ∃ k : Int, DecimalText t (k / 10 ^ 6) ∧ |q - k / 10 ^ 6| ≤ 1 / (2 * 10 ^ 6)

/-- A whole number of millionths. -/
def WholeMillionths (q : Rat) : Prop := ∃ k : Int, q = k / 10 ^ 6

/-- The real number that an attribute of an element declares, a default without it. -/
def DeclaredReal (rd : Reader) (x : SXml) (name : Str) (dflt q : Rat) : Prop :=
  (x.attr name = none ∧ q = dflt) ∨ ∃ t d, x.attr name = some t ∧ rd.dbl t = some d ∧ q = d.val

/-- The integer of 32 bits that an attribute of an element declares, zero without it. -/
def DeclaredInt (x : SXml) (name : Str) (n : Int) : Prop :=
  (x.attr name = none ∧ n = 0) ∨ ∃ t, x.attr name = some t ∧ PlainInt t n ∧ -2 ^ 31 ≤ n ∧ n < 2 ^ 31

/-- The element has nothing inside and declares a slope, whose denominator is not zero, and an offset, or leaves them out. -/
def SlopeAndOffset (rd : Reader) (x : SXml) : Prop :=
  x.children = [] ∧ (∃ n, DeclaredReal rd x (s "SlopeNumerator") 1 n) ∧
    (∃ d, DeclaredReal rd x (s "SlopeDenominator") 1 d ∧ d ≠ 0) ∧ ∃ o, DeclaredInt x (s "Offset") o

end PF.Spec
