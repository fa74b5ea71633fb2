import Verif.Model.Manager
import Verif.Spec.XmlSettings
import Mathlib.Algebra.Order.Field.Rat

/-!
# Specification of the text access to scalar parameters

What a text means for the memory of a parameter, and what text the memory is shown as, in each value
space (real or raw) and output format (decimal or hexadecimal).
-/

namespace PF.Spec

/-- `out` is `n` in hexadecimal, with exactly `width` digits. -/
def Hexadecimal (width n : Nat) (out : Str) : Prop :=
  ∃ ds, out = '0' :: 'x' :: ds ∧ ds.length = width ∧ Numeral 16 ds n

/-- The real number that the bytes of a fixed-point parameter hold: the number is at the top of the
bytes, and the bits below its `integral + fractional + 1` bits do not count. -/
def fixedValue (t : FixedType) (bs : List Byte) : Rat :=
  ((memValue true bs / ((2 ^ (8 * t.size - (t.integral + t.fractional + 1)) : Nat) : Int) : Int) : Rat) /
    ((2 ^ t.fractional : Nat) : Rat)

/-- The text `out` shows the bytes `bs` of a parameter of the given type.  Raw space shows the content
of the memory, in hexadecimal if that is the output format.  Real space shows the value: the output
format has no effect there. -/
def Shown (raw hex : Bool) (bs : List Byte) (out : Str) : ScalarType → Prop
  | .bool => out = (if raw = true ∧ hex = true then s "0x" else []) ++ (if decLE bs = 0 then s "0" else s "1")
  | .int t => if raw = true ∧ hex = true then Hexadecimal (2 * t.size) (decLE bs) out
      else out = intText (memValue t.signed bs)
  | .enum t =>
      if raw = true then
        if hex = true then Hexadecimal (2 * t.size) (decLE bs) out else Numeral 10 out (decLE bs)
      else (∃ before v after, t.pairs = before ++ (out, v) :: after ∧ v.toInt = memValue true bs ∧
          ∀ p ∈ before, p.2 ≠ v) ∨ out = [] ∧ ¬ t.Declared (memValue true bs)
  | .fixed t =>
      if raw = true then
        if hex = true then Hexadecimal (2 * t.size) (decLE bs) out else out = intText (memValue true bs)
      else DecimalText out (fixedValue t bs)
  | .float _ =>
      if raw = true then
        if hex = true then FloatHex (decLE bs) out else Numeral 10 out (decLE bs)
      else if F32Finite (f32Mem bs) then ∃ q, RealText out q ∧ SixDigits (f32Val (f32Mem bs)) q
      else out ∈ [s "inf", s "-inf", s "nan", s "-nan"]

/-- The text stands for the bytes `bs` of a parameter of the given type.  For a fixed-point parameter
raw space takes the content of the memory, real space a decimal number, of which the memory gets the
nearest representable one.  For a floating-point parameter raw space takes the bits of the number, real
space the number that the text is read as. -/
def Stands (rd : Reader) (raw : Bool) (text : Str) (bs : List Byte) : ScalarType → Prop
  | .bool => (text = s "1" ∨ text = s "0x1") ∧ bs = [1#8] ∨ (text = s "0" ∨ text = s "0x0") ∧ bs = [0#8]
  | .int t => bs.length = t.size ∧ Denotes t.signed t.bits text (memValue t.signed bs) ∧
      t.min ≤ memValue t.signed bs ∧ memValue t.signed bs ≤ t.max
  | .enum t => bs.length = t.size ∧ t.Declared (memValue true bs) ∧
      ∃ n, t.Selects text n ∧ memValue true bs = if raw then Int.bmod n (2 ^ (8 * t.size)) else n
  | .fixed t => bs.length = t.size ∧
      if raw = true then Denotes true (8 * t.size) text (memValue true bs)
      else (∀ ds, text ≠ '0' :: 'x' :: ds ∧ text ≠ '0' :: 'X' :: ds) ∧ ∃ d, rd.dbl text = some d ∧ t.Real d.val ∧
        t.Representable (fixedValue t bs) ∧
        (∀ q, t.Representable q → |fixedValue t bs - d.val| ≤ |q - d.val|) ∧
        ((2 ^ (8 * t.size - (t.integral + t.fractional + 1)) : Nat) : Int) ∣ memValue true bs
  | .float t => bs.length = 4 ∧ FloatAllows t (f32Mem bs) ∧
      if raw = true then Denotes false 32 text (decLE bs)
      else (∀ ds, text ≠ '0' :: 'x' :: ds ∧ text ≠ '0' :: 'X' :: ds) ∧ rd.flt text = some (f32Mem bs)

/-- The declaration is one that the structure files can make. -/
def Sound : ScalarType → Prop
  | .bool => True
  | .int t => t.WF
  | .enum t => t.size = 1 ∨ t.size = 2 ∨ t.size = 4
  | .fixed t => t.WF
  | .float t => FloatWF t

/-- The path leads to a scalar parameter of type `t`, at offset `o` of the main blackboard. -/
def ScalarAt (root : Elem) (path : Str) (t : ScalarType) (o : Nat) : Prop :=
  ∃ p el, root.accessTarget path = some (p, []) ∧ root.at? p = some el ∧ el.kind = .scalar t ∧
    root.offset 0 p = some o

end PF.Spec
