import Verif.Model.StructureExport
import Verif.Spec.Structure
import Verif.Spec.XmlSettings

/-! # What the export of a structure says -/

namespace PF.Spec

/-- A finite floating-point number that is a whole number of millionths. -/
def Millionths (v : BitVec 32) : Prop := F32Finite v ∧ ∃ k : Int, f32Val v = k / 10 ^ 6

/-- What is needed of an element for its export to say everything about it: it is neither in a bit parameter block nor one, the
bounds of floating-point parameters are whole millionths, lengths fit in a `size_t`. -/
def Exportable : EKind → Prop
  | .group k => k = s "ParameterBlock" ∨ k = s "ComponentInstance"
  | .bitBlock _ => False
  | .bit _ => False
  | .scalar t => ∀ f, t = .float f → Millionths f.min ∧ Millionths f.max
  | .array t => (0 < t.length ∧ t.length < 2 ^ 64) ∧ ∀ f, t.elem = .float f → Millionths f.min ∧ Millionths f.max
  | .string m => m < 2 ^ 64

/-- A component is like a block. -/
def asBlock : EKind → EKind
  | .group _ => .group (s "ParameterBlock")
  | k => k

mutual
/-- The element without syncers, and with blocks in the place of components. -/
def plain : Elem → Elem
  | .mk n k _ cs => .mk n (asBlock k) none (plains cs)
/-- The same for a list. -/
def plains : List Elem → List Elem
  | [] => []
  | c :: cs => plain c :: plains cs
end

/-- `NodeIn x p y`: `y` is what the document `x` has at the position `p`. -/
inductive NodeIn : SXml → Pos → SXml → Prop
  | here {x} : NodeIn x [] x
  | child {x q p c y} : x.children[q]? = some c → NodeIn c p y → NodeIn x (q :: p) y

/-- The attribute is a decimal number at most half a millionth away from the number. -/
def NearAttr (x : SXml) (name : Str) (v : BitVec 32) : Prop :=
  ∃ t q, x.attr name = some t ∧ DecimalText t q ∧ |f32Val v - q| ≤ 1 / (2 * 10 ^ 6)

/-- `x` declares the type; for a floating-point type, about. -/
def DeclaresType (x : SXml) : ScalarType → Prop
  | .float t => x.tag = s "FloatingPointParameter" ∧ NumAttr x (s "Size") 32 32 ∧ NearAttr x (s "Min") t.min ∧ NearAttr x (s "Max") t.max
  | t => ∀ rd, Scalar rd x t

/-- `x` declares an element of that kind; nothing about the size of a bit parameter block. -/
def DeclaresKind (x : SXml) : EKind → Prop
  | .group k => x.tag = if k = s "ComponentInstance" then s "ParameterBlock" else k
  | .bitBlock _ => x.tag = s "BitParameterBlock"
  | .scalar t => DeclaresType x t ∧ x.attr (s "ArrayLength") = none
  | .array t => DeclaresType x t.elem ∧ NumAttr x (s "ArrayLength") 0 t.length
  | .string m => x.tag = s "StringParameter" ∧ NumAttr x (s "MaxLength") 0 m
  | .bit t => Bits t.blockSize x t

/-- A structure document with an empty component library and these declarations of instances. -/
def declaring (name type : Str) (xs : List SXml) : SXml :=
  .mk (s "Subsystem") [(s "Name", name), (s "Type", type)]
    [.mk (s "ComponentLibrary") [] [], .mk (s "InstanceDefinition") [] xs]

end PF.Spec
