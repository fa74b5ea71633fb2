import Verif.Spec.Structure

/-!
# Structure documents that are to be accepted

What the author of a structure document has to observe: the attributes are readable, references are to
component types declared before, and elements have the child elements that belong to them.
-/

namespace PF.Spec

/-- A number without a minus sign. -/
inductive UnsignedText : Str → Nat → Prop
  | dec {t n} : Numeral 10 t n → UnsignedText t n
  | plus {t n} : Numeral 10 t n → UnsignedText ('+' :: t) n
  | hex {t n} : Numeral 16 t n → UnsignedText ('0' :: 'x' :: t) n

/-- The attributes of `x` that hold sizes, lengths and positions, and the bounds if `x` is no signed
integer, are written without a minus sign and are below 2^64; no sum of sizes and positions is too large
for the code. -/
structure Legible (x : SXml) : Prop where
  sizes : ∀ name ∈ [s "ArrayLength", s "Size", s "MaxLength", s "Pos", s "Integral", s "Fractional"],
    ∀ t, x.attr name = some t → ∃ n, UnsignedText t n ∧ n < 2 ^ 64
  bounds : x.tag = s "BitParameter" ∨ x.tag = s "IntegerParameter" ∧ SignedAttr x false →
    ∀ name ∈ [s "Min", s "Max"], ∀ t, x.attr name = some t → ∃ n, UnsignedText t n
  pos : x.tag = s "BitParameter" → ∀ p n, NumAttr x (s "Pos") 0 p → NumAttr x (s "Size") 0 n → p + n < 2 ^ 64
  sum : x.tag = s "FixedPointParameter" → ∀ i f, NumAttr x (s "Integral") 0 i →
    NumAttr x (s "Fractional") 0 f → i + f + 1 < 2 ^ 32
  mapping : ∃ ms, Maps [x] ms

/-- The name `n` refers to a component type of `lib`, and not to the last one if `direct`. -/
def Refers (lib : List SXml) (direct : Bool) (n : Str) : Prop :=
  ∃ before t after, lib = before ++ t :: after ∧ typeName t = n ∧ (∀ u ∈ before, typeName u ≠ n) ∧
    (direct = true → after ≠ [])

/-- The children that belong to a scalar parameter: value pairs for an enumeration, adaptations for an
integer, none for others. -/
structure ScalarChildren (x : SXml) : Prop where
  enum : x.tag = s "EnumParameter" → ∀ c ∈ x.children, c.children = []
  int : x.tag = s "IntegerParameter" → ∀ c ∈ x.children,
    c.tag ∈ [s "LinearAdaptation", s "LogarithmicAdaptation"] ∧ c.children = []
  other : x.tag ≠ s "EnumParameter" → x.tag ≠ s "IntegerParameter" → x.children = []

/-- `Accepted rd lib direct blk x`: the declaration `x` is to be accepted where the component types
declared so far are `lib`.  `direct`: it is a child of the last of them; `blk`: the size of the bit
parameter block that it is a child of, if any. -/
inductive Accepted (rd : Reader) (lib : List SXml) : (direct : Bool) → (blk : Option Nat) → SXml → Prop
  | scalar {direct blk x t} : Scalar rd x t → Legible x → ScalarChildren x → Accepted rd lib direct blk x
  | string {direct blk x} : x.tag = s "StringParameter" → Legible x → x.children = [] →
      Accepted rd lib direct blk x
  | bit {direct size x t} : Bits size x t → Legible x → x.children = [] →
      Accepted rd lib direct (some size) x
  | bitBlock {direct blk x bits} : x.tag = s "BitParameterBlock" → Legible x →
      NumAttr x (s "Size") 0 (bits : Nat) →
      (∀ c ∈ x.children, Accepted rd lib false (some (bits / 8)) c) → Accepted rd lib direct blk x
  | block {direct blk x} : x.tag = s "ParameterBlock" → Legible x →
      (∀ c ∈ x.children, Accepted rd lib false none c) → Accepted rd lib direct blk x
  | comp {direct blk x n} : x.tag = s "Component" → Legible x → x.attr (s "Type") = some n →
      Refers lib direct n → (∀ c ∈ x.children, Accepted rd lib false none c) → Accepted rd lib direct blk x

/-- The component type `t` is to be accepted after the component types `before`. -/
structure TypeAccepted (rd : Reader) (before : List SXml) (t : SXml) : Prop where
  tag : t.tag = s "ComponentType"
  attrs : Legible t
  ext : ∀ n, t.attr (s "Extends") = some n → Refers (before ++ [t]) true n
  children : ∀ c ∈ t.children, Accepted rd (before ++ [t]) true none c

/-- The structure document `x` of a subsystem, with the component types `lib` and the instance definition
`defx`, is to be accepted. -/
structure DocumentAccepted (rd : Reader) (x : SXml) (lib : List SXml) (defx : SXml) : Prop where
  layout : Layout x lib defx
  mapping : ∃ ms, Maps [x] ms
  types : ∀ before t after, lib = before ++ t :: after → TypeAccepted rd before t
  attrs : Legible defx
  instances : ∀ c ∈ defx.children, Accepted rd lib false none c

end PF.Spec
