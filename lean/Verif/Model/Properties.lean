import Verif.Model.Listing
import Verif.Model.StructureExport

/-!
# Model of the command `showProperties`

`showPropertiesCommandProcess` (ParameterMgr.cpp:1665-1685) and the `showProperties` functions of the elements and of
their types.
-/

namespace PF

/-- The texts of an element that the tree does not hold: the description of the instance and of its type (`_strDescription`,
Element.h; empty for the type of the system class and of a subsystem, which have none), the unit (`_strUnit`, ParameterType.h)
and, for an integer with an adaptation, the lines that the adaptation shows (ParameterAdaptation.cpp:51-64,
LinearParameterAdaptation.cpp:45-58, LogarithmicParameterAdaptation.cpp:46-56): see `Adaptation.shownLines`. -/
structure ElemTexts where
  description : Str
  typeDescription : Str
  unit : Str
  adaptation : Option (List Str)
deriving Repr, DecidableEq

/-- `showDescriptionProperty` (Element.cpp:130-135). -/
def descriptionText (d : Str) : Str := if d ≠ [] then s "Description: " ++ d ++ s "\n" else []

/-- A bound written to a stream (IntegerParameterType.h:278-280).  `_min` and `_max` are of the `CType` of
IntegerParameterType.h:46-60: `int8_t` or `uint8_t` for a type of one byte, which `operator<<` writes as a character. -/
def IntType.boundText (t : IntType) (n : Int) : Str :=
  if t.size = 1 then [Char.ofNat (n % 256).toNat] else intText n

/-- A value pair (EnumParameterType.cpp:65-74). -/
def pairText (p : Str × BitVec 32) : Str :=
  s "\tLiteral: \"" ++ p.1 ++ s "\", Numerical: " ++ intText p.2.toInt ++ s "\n"

/-- What the class of a parameter type adds (IntegerParameterType.h:277-293, EnumParameterType.cpp:59-75,
FixedPointParameterType.cpp:61-66, FloatingPointParameterType.cpp:57; a boolean type adds nothing). -/
def ScalarType.ownProperties (d : ElemTexts) : ScalarType → Str
  | .bool => []
  | .int t =>
    s "Signed: " ++ (if t.signed then s "yes" else s "no") ++ s "\n" ++ s "Min: " ++ t.boundText t.min ++ s "\n" ++
      s "Max: " ++ t.boundText t.max ++ s "\n" ++
      (match d.adaptation with
       | none => []
       | some ls => s "Adaptation:\n" ++ linesText ls)
  | .enum t => s "Value Pairs:\n" ++ t.pairs.flatMap pairText
  | .fixed t => s "Notation: Q" ++ natText t.integral ++ s "." ++ natText t.fractional ++ s "\n"
  | .float t => s "Min:" ++ f32Fixed t.min ++ s "\n" ++ s "Max:" ++ f32Fixed t.max ++ s "\n"

/-- `showProperties` of a parameter type (ParameterType.cpp:109-120, TypeElement.cpp:79-86) and what its class adds. -/
def ScalarType.showProperties (t : ScalarType) (d : ElemTexts) : Str :=
  descriptionText d.typeDescription ++ (if d.unit ≠ [] then s "Unit: " ++ d.unit ++ s "\n" else []) ++
    s "Scalar size: " ++ natText t.size ++ s " byte(s) \n" ++ t.ownProperties d

/-- `showProperties` of the type of an element (TypeElement.cpp:79-86, BitParameterType.cpp:53-71,
StringParameterType.cpp:49-57) and, for an array, what `CArrayParameter::showProperties` adds (ArrayParameter.cpp:61-69). -/
def EKind.typeProperties (d : ElemTexts) : EKind → Str
  | .group _ => descriptionText d.typeDescription
  | .bitBlock _ => descriptionText d.typeDescription
  | .scalar t => t.showProperties d
  | .array t => t.elem.showProperties d ++ s "Array length: " ++ natText t.length ++ s "\n"
  | .string m => descriptionText d.typeDescription ++ s "Max length: " ++ natText m ++ s "\n"
  | .bit t =>
    descriptionText d.typeDescription ++ s "Bit pos: " ++ natText t.pos ++ s "\n" ++ s "Bit size: " ++ natText t.bits ++ s "\n" ++
      s "Max: " ++ natText t.max.toNat ++ s "\n"

/-- `showProperties` of an element (Element.cpp:124-128, ConfigurableElement.cpp:308-313,
InstanceConfigurableElement.cpp:118-124). -/
def Elem.properties (e : Elem) (d : ElemTexts) : Str :=
  s "Kind: " ++ e.kind.text ++ s "\n" ++ descriptionText d.description ++
    s "Total size: " ++ (natText e.footprint ++ s " byte(s)") ++ s "\n" ++ e.kind.typeProperties d

/-- `showPropertiesCommandProcess` (ParameterMgr.cpp:1665-1685). -/
def Elem.showProperties (root : Elem) (docs : Pos → ElemTexts) (path : Str) : Out Str :=
  match root.locate path with
  | none => .err
  | some p => Out.orAbort ((root.at? p).map fun e => e.properties (docs p))

end PF
