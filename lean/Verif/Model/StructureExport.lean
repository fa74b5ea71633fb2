import Verif.Model.Structure
import Verif.Model.XmlSettings

/-!
# Model of the export of structures

`getElementStructureXML` and `getSystemClassXML` (ParameterMgr.cpp:1406-1428, 1941-1956): the `toXml` functions of
the elements without settings (ConfigurableElement.cpp:65-77), as a tree; the document around it is libxml2's.

Simplifications: descriptions, units and adaptations are left out, as in `Verif.Model.Structure`; so is the
`ArrayLength` of bit and string parameters, which has no effect on them.
-/

namespace PF

/-- `std::to_string(float)` (XmlElement.cpp:215-219): `%f`, six decimals, rounded to nearest (ties to even). -/
def f32Fixed (v : BitVec 32) : Str :=
  let sign : Str := if v.msb then ['-'] else []
  if !f32Finite v then sign ++ (if f32Man v = 0 then s "inf" else s "nan")
  else
    let n := roundEven (f32Mag v * 10 ^ 6) (2 ^ 149)
    sign ++ natText (n / 10 ^ 6) ++ '.' :: fracDigits 6 (n % 10 ^ 6)

/-- `CEnumValuePair::toXml` (EnumValuePair.cpp:77-89). -/
def pairXml (p : Str × BitVec 32) : SXml :=
  .mk (s "ValuePair") [(s "Literal", p.1), (s "Numerical", intText p.2.toInt)] []

/-- The attributes that the class of a parameter type sets (IntegerParameterType.h:110-120; the size of an integer type is `bitSize`,
EnumParameterType.cpp:284-291, FixedPointParameterType.cpp:362-375, FloatingPointParameterType.cpp:276-284). -/
def ScalarType.xmlAttrs : ScalarType → List (Str × Str)
  | .bool => []
  | .int t => [(s "Signed", if t.signed then s "true" else s "false"), (s "Min", intText t.min), (s "Max", intText t.max),
      (s "Size", natText (t.size * 8))]
  | .enum t => [(s "Size", natText (t.size * 8))]
  | .fixed t => [(s "Size", natText (t.size * 8)), (s "Integral", natText t.integral), (s "Fractional", natText t.fractional)]
  | .float t => [(s "Size", natText 32), (s "Min", f32Fixed t.min), (s "Max", f32Fixed t.max)]

/-- The child elements that a parameter type exports (Element.cpp:192-206): the value pairs. -/
def ScalarType.xmlChildren : ScalarType → List SXml
  | .enum t => t.pairs.map pairXml
  | _ => []

/-- `setXmlNameAttribute` (Element.cpp:223-232). -/
def declNameAttrs (n : Str) : List (Str × Str) := if n = [] then [] else [(s "Name", n)]

/-- The attributes of an element without its name: `structureToXml` (ConfigurableElement.h:192-196) writes none for a group or
a bit parameter block; for a parameter it is its type that writes (BaseParameter.cpp:197-203, BitParameterType.cpp:229-242,
StringParameterType.cpp:82-89, TypeElement.cpp:180-188). -/
def EKind.xmlAttrs : EKind → List (Str × Str)
  | .group _ => []
  | .bitBlock _ => []
  | .scalar t => t.xmlAttrs
  | .array t => t.elem.xmlAttrs ++ [(s "ArrayLength", natText t.length)]
  | .string m => [(s "MaxLength", natText m)]
  | .bit t => [(s "Pos", natText t.pos), (s "Size", natText t.bits), (s "Max", natText t.max.toNat)]

/-- The child elements that a parameter exports. -/
def EKind.xmlChildren : EKind → List SXml
  | .scalar t => t.xmlChildren
  | .array t => t.elem.xmlChildren
  | _ => []

mutual
/-- `toXml` without settings (ConfigurableElement.cpp:65-77, Element.cpp:192-213). -/
def Elem.structureXml : Elem → SXml
  | .mk n k _ cs => .mk k.xmlTag (k.xmlAttrs ++ declNameAttrs n) (k.xmlChildren ++ Elem.structureXmls cs)
/-- The loop over the children (Element.cpp:192-206). -/
def Elem.structureXmls : List Elem → List SXml
  | [] => []
  | c :: cs => c.structureXml :: Elem.structureXmls cs
end

end PF
