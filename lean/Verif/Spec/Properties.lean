import Verif.Model.Properties
import Verif.Spec.Listing
import Verif.Spec.Access

/-! # Specification of the properties shown of an element -/

namespace PF.Spec

/-- A line with a label and a text, unless the text is empty. -/
def Labelled (label t : Str) : List Str := if t = [] then [] else [label ++ t]

/-- The lines that start the properties of every element of `size` bytes: kind, size and descriptions. -/
def Heading (kind : Str) (d : ElemTexts) (size : Nat) : List Str :=
  [s "Kind: " ++ kind] ++ Labelled (s "Description: ") d.description ++
    [s "Total size: " ++ natText size ++ s " byte(s)"] ++ Labelled (s "Description: ") d.typeDescription

/-- The line that shows a value pair. -/
def PairLine (p : Str × BitVec 32) : Str :=
  s "\tLiteral: \"" ++ p.1 ++ s "\", Numerical: " ++ intText p.2.toInt

/-- The lines that show the values of a type. -/
def ValueLines (d : ElemTexts) : ScalarType → List Str → Prop
  | .bool, ls => ls = []
  | .int t, ls => ∃ lo hi, ls = [s "Signed: " ++ (if t.signed then s "yes" else s "no"), s "Min: " ++ lo, s "Max: " ++ hi] ++
        (match d.adaptation with
         | none => []
         | some as => s "Adaptation:" :: as) ∧
      (if t.size = 1 then (∃ c, lo = [c] ∧ c.toNat = (t.min % 256).toNat) ∧ ∃ c, hi = [c] ∧ c.toNat = (t.max % 256).toNat
       else lo = intText t.min ∧ hi = intText t.max)
  | .enum t, ls => ls = s "Value Pairs:" :: t.pairs.map PairLine
  | .fixed t, ls => ls = [s "Notation: Q" ++ natText t.integral ++ s "." ++ natText t.fractional]
  | .float t, ls => ls = [s "Min:" ++ f32Fixed t.min, s "Max:" ++ f32Fixed t.max]

/-- The lines that show the type of an element. -/
def Details (d : ElemTexts) : EKind → List Str → Prop
  | .group _, ls => ls = []
  | .bitBlock _, ls => ls = []
  | .scalar t, ls => ∃ vs, ValueLines d t vs ∧
      ls = Labelled (s "Unit: ") d.unit ++ [s "Scalar size: " ++ natText t.size ++ s " byte(s) "] ++ vs
  | .array t, ls => ∃ vs, ValueLines d t.elem vs ∧
      ls = Labelled (s "Unit: ") d.unit ++ [s "Scalar size: " ++ natText t.elem.size ++ s " byte(s) "] ++ vs ++
        [s "Array length: " ++ natText t.length]
  | .string m, ls => ls = [s "Max length: " ++ natText m]
  | .bit t, ls => ls = [s "Bit pos: " ++ natText t.pos, s "Bit size: " ++ natText t.bits, s "Max: " ++ natText t.max.toNat]

end PF.Spec
