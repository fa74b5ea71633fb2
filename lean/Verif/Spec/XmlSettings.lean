import Verif.Model.XmlSettings
import Verif.Spec.Tree
import Verif.Spec.FloatingPoint

/-!
# Specification vocabulary for settings in XML
-/

namespace PF

/-- The readers of real numbers do their job: a decimal text whose value is a double gives a double of exactly that
value, and a text whose value is in the range of single-precision numbers gives the nearest one, with the sign
that is written. -/
structure ReadsDecimals (rd : Reader) : Prop where
  dbl : ∀ text (d : Dbl), DecimalText text d.val → d.num.natAbs < 2 ^ 53 → d.k ≤ 1074 →
    ∃ d', rd.dbl text = some d' ∧ d'.val = d.val
  flt : ∀ text q, Spec.RealText text q → |q| ≤ Spec.f32Max →
    ∃ v, rd.flt text = some v ∧ Spec.Nearest q v ∧ (v.msb = true ↔ text.head? = some '-')

/-- A scalar type as the structure files should declare it: for enumerations, literals are distinct and
do not look like numbers. -/
def ScalarType.Regular : ScalarType → Prop
  | .bool => True
  | .int t => t.WF
  | .enum t => (t.size = 1 ∨ t.size = 2 ∨ t.size = 4) ∧ (t.pairs.map (·.1)).Nodup ∧
      ∀ p ∈ t.pairs, ¬ ∃ n, PlainInt p.1 n
  | .fixed t => t.WF
  | .float t => Spec.FloatWF t

/-- The bytes hold a value of the type that the texts of the format `ctx` can carry: an integer in the
declared range, a declared number (32-bit enumerations have no raw hexadecimal text and no raw text
for negative numbers), in real space a fixed-point value without bits below the declared ones, a
floating-point number in the declared range and, in real space, one that is the nearest number to its six
significant digits (the raw hexadecimal texts of the positive numbers below 2⁻¹²⁹ are not hexadecimal numbers). -/
def ScalarType.Carried (ctx : Ctx) (bs : List Byte) : ScalarType → Prop
  | .bool => True
  | .int t => t.min ≤ memValue t.signed bs ∧ memValue t.signed bs ≤ t.max
  | .enum t => t.Declared (memValue true bs) ∧
      (ctx.raw = true → t.size = 4 → ctx.hex = false ∧ 0 ≤ memValue true bs)
  | .fixed t => ctx.raw = false →
      ((2 ^ (8 * t.size - (t.integral + t.fractional + 1)) : Nat) : Int) ∣ memValue true bs
  | .float t => Spec.FloatAllows t (Spec.f32Mem bs) ∧
      (ctx.raw = true → ctx.hex = true → decLE bs = 0 ∨ 2 ^ 20 ≤ decLE bs) ∧ (ctx.raw = false →
      ∀ q, Spec.SixDigits (Spec.f32Val (Spec.f32Mem bs)) q → |q| ≤ Spec.f32Max ∧ Spec.Nearest q (Spec.f32Mem bs))

/-- The number of an enumeration is not negative. -/
def ScalarType.NonNegative (bs : List Byte) : ScalarType → Prop
  | .enum _ => 0 ≤ memValue true bs
  | _ => True

/-- The numbers of the enumerations of a parameter at `off` are not negative. -/
def EKind.NonNegative (b : Board) (off : Nat) : EKind → Prop
  | .scalar t => ∀ bs, b.read off t.size = some bs → t.NonNegative bs
  | .array t => ∀ j bs, j < t.length → b.read (off + j * t.elem.size) t.elem.size = some bs → t.elem.NonNegative bs
  | _ => True

/-- The numbers of all enumerations of the element at `off` are not negative. -/
def Elem.NonNegative (b : Board) (e : Elem) (off : Nat) : Prop :=
  ∀ q f o, e.at? q = some f → e.offset off q = some o → f.kind.NonNegative b o

/-- The literals of an enumeration can be told apart in the text of an array. -/
def ScalarType.SeparableTexts : ScalarType → Prop
  | .enum t => ∀ p ∈ t.pairs, p.1 ≠ [] ∧
      ∀ c ∈ p.1, c ∉ [' ', '\n', '\r', '\t', Char.ofNat 11, Char.ofNat 12, ',']
  | _ => True

/-- The memory at `off` holds, for a parameter of kind `k`, a value the texts of format `ctx` carry. -/
def EKind.Carried (ctx : Ctx) (b : Board) (off : Nat) : EKind → Prop
  | .scalar t => t.Regular ∧ ∀ bs, b.read off t.size = some bs → t.Carried ctx bs
  | .array t => t.elem.Regular ∧ t.elem.SeparableTexts ∧
      ∀ j bs, j < t.length → b.read (off + j * t.elem.size) t.elem.size = some bs → t.elem.Carried ctx bs
  | .string m => ∃ bs, b.read off (m + 1) = some bs ∧ 0#8 ∈ bs
  | .bit t => ∀ bs, b.read off t.blockSize = some bs → bitField t.pos t.bits bs ≤ t.max.toNat
  | _ => True

/-- Every parameter of the element at `off` holds a value the texts of format `ctx` carry. -/
def Elem.Carried (ctx : Ctx) (b : Board) (e : Elem) (off : Nat) : Prop :=
  ∀ q f o, e.at? q = some f → e.offset off q = some o → f.kind.Carried ctx b o

/-- Every parameter of the element has, in every format, the same text in memory `b` (with the element
at `off`) and in memory `b'` (with the element at `off'`). -/
def Elem.SameSettings (e : Elem) (b : Board) (off : Nat) (b' : Board) (off' : Nat) : Prop :=
  ∀ q f o o', e.at? q = some f → f.kind.isParameter = true → e.offset off q = some o →
    e.offset off' q = some o' →
    ∀ ctx, getParamText ctx f.kind b' o' 0 [] = getParamText ctx f.kind b o 0 []

/-- The tag of the XML element for the settings of an element: the kind of the element, except that the
instance of a component is a `ParameterBlock`. -/
def EKind.settingsTag : EKind → Str
  | .group k => if k = s "ComponentInstance" then s "ParameterBlock" else k
  | .bitBlock _ => s "BitParameterBlock"
  | .bit _ => s "BitParameter"
  | .string _ => s "StringParameter"
  | .scalar .bool | .array ⟨.bool, _⟩ => s "BooleanParameter"
  | .scalar (.int _) | .array ⟨.int _, _⟩ => s "IntegerParameter"
  | .scalar (.enum _) | .array ⟨.enum _, _⟩ => s "EnumParameter"
  | .scalar (.fixed _) | .array ⟨.fixed _, _⟩ => s "FixedPointParameter"
  | .scalar (.float _) | .array ⟨.float _, _⟩ => s "FloatingPointParameter"

/-- The XML element at a position, counted in child elements. -/
def XElem.at? : XElem → Pos → Option XElem
  | x, [] => some x
  | .mk _ _ _ _ xs, i :: q => match xs[i]? with | none => none | some x => x.at? q

/-- The XML element lists the children of the element, in order, with their tags and names, down to the
parameters. -/
inductive XElem.Lists : XElem → Elem → Prop
  | mk {tag name vs text xs n k sy cs} :
      xs.length = cs.length →
      (∀ (i : Nat) (x : XElem) (c : Elem), xs[i]? = some x → cs[i]? = some c →
        (x.tag = c.kind.settingsTag ∨ c.kind.settingsTag = s "ParameterBlock" ∧ x.tag = s "Component") ∧
        x.name = c.name) →
      (∀ (i : Nat) (x : XElem) (c : Elem), xs[i]? = some x → cs[i]? = some c → Lists x c) →
      Lists (.mk tag name vs text xs) (.mk n k sy cs)

end PF
