import Verif.Model.Handle
import Verif.Spec.Bits
import Verif.Spec.Scalar
import Verif.Spec.FloatingPoint
import Mathlib.Algebra.Order.Field.Rat

/-! # Specification vocabulary for typed access through a handle -/

namespace PF

/-- The type of a value. -/
def Atom.ty : Atom → ATy
  | .bool _ => .bool
  | .uint _ => .uint
  | .sint _ => .sint
  | .dbl _ => .dbl
  | .special _ => .dbl
  | .str _ => .str

/-- The type of the values of an argument. -/
def HVal.ty : HVal → ATy
  | .one a => a.ty
  | .bools _ => .bool
  | .uints _ => .uint
  | .sints _ => .sint
  | .dbls _ => .dbl
  | .strs _ => .str

/-- The types of access a parameter type has, texts aside: Boolean types have Boolean and unsigned
access, integer types unsigned and signed access, enumerations signed access, fixed-point and
floating-point types access by floating-point number. -/
def ScalarType.Has : ScalarType → ATy → Prop
  | .bool, .bool => True
  | .bool, .uint => True
  | .int _, .uint => True
  | .int _, .sint => True
  | .enum _, .sint => True
  | .fixed _, .dbl => True
  | .float _, .dbl => True
  | _, _ => False

/-- The value is one that the declaration of the type allows; for a floating-point type, the nearest single-precision
number is. -/
def ScalarType.Takes : ScalarType → Atom → Prop
  | .bool, .bool _ => True
  | .bool, .uint u => u.toNat ≤ 1
  | .int t, .uint u => t.min ≤ u.toNat ∧ u.toNat ≤ t.max
  | .int t, .sint i => t.min ≤ i.toInt ∧ i.toInt ≤ t.max
  | .enum t, .sint i => t.Declared i.toInt ∧ FitsSigned t.size i.toInt
  | .fixed t, .dbl d => t.Real d.val
  | .float t, .dbl d => |d.val| ≤ Spec.f32Max ∧ ∃ v, Spec.Nearest d.val v ∧ Spec.FloatAllows t v
  | _, _ => False

/-- The declaration is one that the structure files can make, and an integer type is not accessed with
numbers of the other sign: unsigned access for ranges with negative numbers and signed access for
ranges with numbers above the largest signed one do not keep the promise, see C34. -/
def ScalarType.Faithful : ScalarType → ATy → Prop
  | .int t, .uint => t.WF ∧ 0 ≤ t.min
  | .int t, .sint => t.WF ∧ t.max < (2 ^ (t.bits - 1) : Nat)
  | .int t, _ => t.WF
  | .enum t, _ => t.size = 1 ∨ t.size = 2 ∨ t.size = 4
  | .fixed t, _ => t.WF
  | .float t, _ => Spec.FloatWF t
  | .bool, _ => True

/-- What a get gives after a set of `a`: the same value; for a fixed-point type, a representable value
nearest to it; for a floating-point type, the nearest single-precision number. -/
def ScalarType.Shows : ScalarType → Atom → Atom → Prop
  | .fixed t, .dbl d, .dbl r => t.Representable r.val ∧
      (∀ q, t.Representable q → |r.val - d.val| ≤ |q - d.val|)
  | .fixed _, .dbl _, _ => False
  | .float _, .dbl d, .dbl r => ∃ v, Spec.Nearest d.val v ∧ r.val = Spec.f32Val v
  | .float _, .dbl _, _ => False
  | _, a, a' => a' = a

/-- A bit parameter has Boolean access if it has one bit, and unsigned access. -/
def BitType.Has (t : BitType) : ATy → Prop
  | .bool => t.bits = 1
  | .uint => True
  | _ => False

/-- The value is one that the declaration of the bit parameter allows: at most its maximum. -/
def BitType.Takes (t : BitType) : Atom → Prop
  | .bool v => t.bits = 1 ∧ v.toNat ≤ t.max.toNat
  | .uint u => u.toNat ≤ t.max.toNat
  | _ => False

end PF
