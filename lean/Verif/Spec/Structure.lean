import Verif.Model.Structure
import Verif.Spec.Tree
import Verif.Spec.Mapping
import Verif.Spec.FloatingPoint
import Verif.Spec.Scalar

/-!
# What a structure document declares

Stated on the XML tree, without the type elements that the code builds from it.
-/

namespace PF.Spec

/-- The attribute `name` of `x` is the number `n`; `dflt` is the number when there is no such
attribute. -/
def NumAttr (x : SXml) (name : Str) (dflt n : Int) : Prop :=
  (x.attr name = none ∧ n = dflt) ∨ ∃ t, x.attr name = some t ∧ PlainInt t n

/-- The attribute `Signed` of `x`. -/
def SignedAttr (x : SXml) (b : Bool) : Prop :=
  (x.attr (s "Signed") = none ∧ b = false) ∨
  (∃ t, x.attr (s "Signed") = some t ∧ t ∈ [s "0", s "false", s "FALSE"] ∧ b = false) ∨
  (∃ t, x.attr (s "Signed") = some t ∧ t ∈ [s "1", s "true", s "TRUE"] ∧ b = true)

/-- Lowest number of an integer type of that size in bytes. -/
def lowest (signed : Bool) (size : Nat) : Int := if signed then -(2 ^ (8 * size - 1) : Nat) else 0
/-- Highest number of an integer type of that size in bytes. -/
def highest (signed : Bool) (size : Nat) : Int :=
  if signed then (2 ^ (8 * size - 1) : Nat) - 1 else (2 ^ (8 * size) : Nat) - 1

/-- The attribute `name` of `x` is the finite floating-point number with the bits `v`; `dflt` is its value when
there is no such attribute.  `rd`: how texts are read as floating-point numbers. -/
def FloatAttr (rd : Reader) (x : SXml) (name : Str) (dflt : Rat) (v : BitVec 32) : Prop :=
  F32Finite v ∧ ((x.attr name = none ∧ f32Val v = dflt) ∨ ∃ t, x.attr name = some t ∧ rd.flt t = some v)

/-- The value pairs declared by the children of an enum. -/
inductive Pairs : List SXml → List (Str × BitVec 32) → Prop
  | nil : Pairs [] []
  | cons {x xs ps n} : x.tag = s "ValuePair" → NumAttr x (s "Numerical") 0 n → FitsSigned 4 n →
      Pairs xs ps → Pairs (x :: xs) (((x.attr (s "Literal")).getD [], BitVec.ofInt 32 n) :: ps)

/-- The scalar type that the parameter declaration `x` declares. -/
inductive Scalar (rd : Reader) : SXml → ScalarType → Prop
  | bool {x} : x.tag = s "BooleanParameter" → Scalar rd x .bool
  | int {x size signed lo hi} : x.tag = s "IntegerParameter" →
      NumAttr x (s "Size") 32 (8 * (size : Nat) : Int) → (size = 1 ∨ size = 2 ∨ size = 4) →
      SignedAttr x signed →
      NumAttr x (s "Min") (lowest signed size) lo → lowest signed size ≤ lo →
      NumAttr x (s "Max") (highest signed size) hi → hi ≤ highest signed size → lo ≤ hi →
      Scalar rd x (.int ⟨signed, size, lo, hi⟩)
  | enum {x bits ps} : x.tag = s "EnumParameter" → x.attr (s "Size") ≠ none →
      NumAttr x (s "Size") 0 (bits : Nat) → Pairs x.children ps →
      Scalar rd x (.enum ⟨bits / 8, ps⟩)
  | fixed {x bits i f} : x.tag = s "FixedPointParameter" →
      NumAttr x (s "Size") 0 (bits : Nat) → NumAttr x (s "Integral") 0 (i : Nat) →
      NumAttr x (s "Fractional") 0 (f : Nat) → i < 2 ^ 32 → f < 2 ^ 32 →
      (i + f + 1 < 2 ^ 32 → i + f + 1 ≤ bits) →
      Scalar rd x (.fixed ⟨bits / 8, i, f⟩)
  | float {x lo hi} : x.tag = s "FloatingPointParameter" → NumAttr x (s "Size") 32 32 →
      FloatAttr rd x (s "Min") (-f32Max) lo → FloatAttr rd x (s "Max") f32Max hi → f32Val lo ≤ f32Val hi →
      Scalar rd x (.float ⟨lo, hi⟩)

/-- The bit parameter type that `x` declares in a block of `size` bytes. -/
inductive Bits : (size : Nat) → SXml → BitType → Prop
  | mk {size x pos bits m} : x.tag = s "BitParameter" → NumAttr x (s "Pos") 0 (pos : Nat) →
      NumAttr x (s "Size") 0 (bits : Nat) → 1 ≤ bits → bits ≤ 64 →
      pos < 2 ^ 64 → (pos + bits < 2 ^ 64 → pos + bits ≤ 8 * size) →
      NumAttr x (s "Max") (2 ^ bits - 1 : Nat) (m : Nat) → m ≤ 2 ^ bits - 1 →
      Bits size x ⟨size, pos, bits, BitVec.ofNat 64 m⟩

/-- The name of a component type in references (an unnamed one is called by its tag). -/
def typeName (t : SXml) : Str := if t.nameAttr = [] then s "ComponentType" else t.nameAttr

/-- `t` is the component type that the name `n` refers to: the first of that name in the library
`lib`. -/
def TypeNamed (lib : List SXml) (n : Str) (t : SXml) : Prop :=
  ∃ before after, lib = before ++ t :: after ∧ typeName t = n ∧ ∀ u ∈ before, typeName u ≠ n

/-- `Chain lib t ts`: `ts` is the component type `t`, the type it extends, the type that one extends
and so on. -/
inductive Chain (lib : List SXml) : SXml → List SXml → Prop
  | last {t} : t.attr (s "Extends") = none → Chain lib t [t]
  | more {t e u us} : t.attr (s "Extends") = some e → TypeNamed lib e u → Chain lib u us →
      Chain lib t (t :: us)

/-- The mapping data declared by the elements of a list, in order.  An element without a mapping
attribute, or with an empty one, has none. -/
inductive Maps : List SXml → List MData → Prop
  | nil : Maps [] []
  | none {x xs ms} : x.attr (s "Mapping") = none ∨ x.attr (s "Mapping") = some [] → Maps xs ms →
      Maps (x :: xs) ms
  | some {x xs ms raw m} : x.attr (s "Mapping") = some raw → raw ≠ [] → MData.init raw = some m →
      Maps xs ms → Maps (x :: xs) (m :: ms)

/-- The elements named "0", "1", ... with the same content each. -/
def Numbered (n : Nat) (k : EKind) (ms : List MData) (content es : List IElem) : Prop :=
  es.length = n ∧ ∀ i, i < n → es[i]? = some (.mk (natText i) k ms content)

/-- `NodeAt i p j`: `j` is what `i` has at the position `p`. -/
inductive NodeAt : IElem → Pos → IElem → Prop
  | here {i} : NodeAt i [] i
  | child {n k ms cs q p c j} : cs[q]? = some c → NodeAt c p j → NodeAt (.mk n k ms cs) (q :: p) j

mutual
/-- `Inst rd lib blk x i`: the declaration `x` declares the element `i`.  `rd`: the reader of floating-point numbers; `lib`: the component types;
`blk`: the size in bytes of the bit parameter block that the declaration is in, if any. -/
inductive Inst (rd : Reader) (lib : List SXml) : Option Nat → SXml → IElem → Prop
  /-- a parameter, or an array of parameters -/
  | scalar {blk x t len ms} : Scalar rd x t → NumAttr x (s "ArrayLength") 0 (len : Nat) → Maps [x] ms →
      Inst rd lib blk x (.mk x.nameAttr (if len = 0 then .scalar t else .array ⟨t, len⟩) ms [])
  | string {blk x m ms} : x.tag = s "StringParameter" → NumAttr x (s "MaxLength") 0 (m : Nat) →
      Maps [x] ms → Inst rd lib blk x (.mk x.nameAttr (.string m) ms [])
  | bit {size x t ms} : Bits size x t → Maps [x] ms →
      Inst rd lib (some size) x (.mk x.nameAttr (.bit t) ms [])
  | bitBlock {blk x bits ms is} : x.tag = s "BitParameterBlock" → NumAttr x (s "Size") 0 (bits : Nat) →
      Maps [x] ms → Insts rd lib (some (bits / 8)) x.children is →
      Inst rd lib blk x (.mk x.nameAttr (.bitBlock (bits / 8)) ms is)
  /-- a block holds what its children declare -/
  | block {blk x ms is} : x.tag = s "ParameterBlock" → NumAttr x (s "ArrayLength") 0 0 →
      Maps [x] ms → Insts rd lib none x.children is →
      Inst rd lib blk x (.mk x.nameAttr (.group (s "ParameterBlock")) ms is)
  | blocks {blk x len ms is es} : x.tag = s "ParameterBlock" →
      NumAttr x (s "ArrayLength") 0 (len : Nat) → 0 < len →
      Maps [x] ms → Insts rd lib none x.children is →
      Numbered len (.group (s "ParameterBlock")) ms is es →
      Inst rd lib blk x (.mk x.nameAttr (.group (s "ParameterBlock")) ms es)
  /-- a component holds what its children declare, then what its type declares, then what the types
  that this one extends declare; and it has the mapping data of all of them -/
  | comp {blk x t ts ms is} : x.tag = s "Component" →
      TypeNamed lib ((x.attr (s "Type")).getD []) t → Chain lib t ts →
      NumAttr x (s "ArrayLength") 0 0 → Maps (x :: ts) ms →
      Insts rd lib none (x.children ++ ts.flatMap SXml.children) is →
      Inst rd lib blk x (.mk x.nameAttr (.group (s "ComponentInstance")) ms is)
  | comps {blk x t ts len ms is es} : x.tag = s "Component" →
      TypeNamed lib ((x.attr (s "Type")).getD []) t → Chain lib t ts →
      NumAttr x (s "ArrayLength") 0 (len : Nat) → 0 < len → Maps (x :: ts) ms →
      Insts rd lib none (x.children ++ ts.flatMap SXml.children) is →
      Numbered len (.group (s "ComponentInstance")) ms is es →
      Inst rd lib blk x (.mk x.nameAttr (.group (s "ComponentInstance")) ms es)
/-- The declarations `xs` declare the elements `is`, one each, in order. -/
inductive Insts (rd : Reader) (lib : List SXml) : Option Nat → List SXml → List IElem → Prop
  | nil {blk} : Insts rd lib blk [] []
  | cons {blk x xs i is} : Inst rd lib blk x i → Insts rd lib blk xs is → Insts rd lib blk (x :: xs) (i :: is)
end

mutual
/-- The component types in an element of a component library: libraries and type sets may be nested. -/
def typesIn : SXml → List SXml
  | .mk tag attrs cs =>
    if tag = s "ComponentLibrary" ∨ tag = s "ComponentTypeSet" then typesInAll cs
    else [.mk tag attrs cs]
/-- The component types in a list of elements of a component library. -/
def typesInAll : List SXml → List SXml
  | [] => []
  | x :: xs => typesIn x ++ typesInAll xs
end

/-- The elements whose child elements declare elements. -/
def groupTags : List Str := [s "Component", s "ParameterBlock", s "BitParameterBlock"]

/-- The declaration `x`, or one at any depth in it, declares a component of the type named `n`. -/
inductive RefersTo (n : Str) : SXml → Prop
  | here {x} : x.tag = s "Component" → x.attr (s "Type") = some n → RefersTo n x
  | inside {x c} : x.tag ∈ groupTags → c ∈ x.children → RefersTo n c → RefersTo n x

/-- The element `x` and all the elements in it have the property. -/
inductive Everywhere (P : SXml → Prop) : SXml → Prop
  | mk {x} : P x → (∀ c, c ∈ x.children → Everywhere P c) → Everywhere P x

/-- What the schema (schemas/Parameter.xsd) asks about sizes and the code does not check: the sizes of
enumerations, fixed point parameters and bit parameter blocks; that bit parameter blocks hold bit
parameters; that a bit parameter is at one of the positions 0 to 63.  The last condition on fixed
point parameters is not in the schema. -/
structure SizesDeclared (x : SXml) : Prop where
  enum : x.tag = s "EnumParameter" → ∃ n ∈ [8, 16, 32], NumAttr x (s "Size") 0 n
  fixed : x.tag = s "FixedPointParameter" → ∃ n ∈ [8, 16, 32], NumAttr x (s "Size") 0 n
  block : x.tag = s "BitParameterBlock" → (∃ n ∈ [8, 16, 32, 64], NumAttr x (s "Size") 0 n) ∧
    ∀ c ∈ x.children, c.tag = s "BitParameter"
  pos : x.tag = s "BitParameter" → ∃ n, n ≤ 63 ∧ NumAttr x (s "Pos") 0 n
  noWrap : x.tag = s "FixedPointParameter" → ∀ i f, NumAttr x (s "Integral") 0 i →
    NumAttr x (s "Fractional") 0 f → i + f + 1 < 2 ^ 32

/-- The bit parameters declared in `x`, if it is a block, do not overlap. -/
def FieldsDeclaredDisjoint (x : SXml) : Prop :=
  x.tag = s "BitParameterBlock" → x.children.Pairwise (fun a b => ∀ p q m n,
    NumAttr a (s "Pos") 0 p → NumAttr a (s "Size") 0 m → NumAttr b (s "Pos") 0 q →
    NumAttr b (s "Size") 0 n → p + m ≤ q ∨ q + n ≤ p)

/-- The tags of the elements that declare elements. -/
def declTags : List Str :=
  groupTags ++ [s "BitParameter", s "StringParameter", s "BooleanParameter", s "IntegerParameter",
    s "EnumParameter", s "FixedPointParameter", s "FloatingPointParameter"]

/-- The names are usable in paths: declarations have a name without slash, the children of a block or
of the instance definition have different names, and so have all the elements of a component: those
of its type and of the types that this one extends. -/
structure NamesDeclared (lib : List SXml) (x : SXml) : Prop where
  name : x.tag ∈ declTags → x.nameAttr ≠ [] ∧ '/' ∉ x.nameAttr
  block : x.tag ∈ [s "ParameterBlock", s "BitParameterBlock", s "InstanceDefinition"] →
    (x.children.map SXml.nameAttr).Nodup
  comp : x.tag = s "Component" → ∀ t ts, TypeNamed lib ((x.attr (s "Type")).getD []) t →
    Chain lib t ts → ((x.children ++ ts.flatMap SXml.children).map SXml.nameAttr).Nodup

/-- A scalar type is what it should be: integers as in C34, fixed point numbers as in C36 and C38. -/
def TypeOk : ScalarType → Prop
  | .bool => True
  | .int t => t.WF
  | .enum t => t.size = 1 ∨ t.size = 2 ∨ t.size = 4
  | .fixed t => t.WF
  | .float t => Spec.FloatWF t

/-- All the parameters and arrays of a structure have such types. -/
def TypesOk (root : Elem) : Prop :=
  ∀ p e t, root.at? p = some e → (e.kind = .scalar t ∨ ∃ n, e.kind = .array ⟨t, n⟩) → TypeOk t

/-- A subsystem has a component library, with the component types `lib`, and then an instance
definition. -/
def Layout (x : SXml) (lib : List SXml) (defx : SXml) : Prop :=
  ∃ libx, x.children = [libx, defx] ∧ libx.tag = s "ComponentLibrary" ∧
    defx.tag = s "InstanceDefinition" ∧ lib = typesInAll libx.children

/-- A name usable in paths. -/
def PathWord (n : Str) : Prop := n ≠ [] ∧ '/' ∉ n

/-- No two elements have the same syncer. -/
def SyncersDistinct (root : Elem) : Prop :=
  ∀ p q e f id, root.at? p = some e → root.at? q = some f → e.syncer = some id → f.syncer = some id → p = q

end PF.Spec
