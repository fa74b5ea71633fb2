import Verif.Model.Structure
import Mathlib.Algebra.Order.Field.Rat

/-!
# Adaptations

An integer parameter whose type has a `LinearAdaptation` or a `LogarithmicAdaptation` is set and read as a
`double` (`IntegerParameterType.h:172-265`, `ParameterAdaptation.cpp`, `LinearParameterAdaptation.cpp`,
`LogarithmicParameterAdaptation.cpp`).

A `double` is IEEE 754 binary64 (asserted at LogarithmicParameterAdaptation.cpp:41-43), in the default rounding
mode: to nearest, ties to even.  Simplifications:
* a finite `double` is its value, a rational number: the two zeros are not told apart;
* the infinities and NaN are one value, `notFinite`: of the operations used here, the products and quotients of
  such a number with a finite one are never finite.  (A finite number divided by an infinity, or the exponential of
  minus infinity, would be: the divisors are finite here, and the exponential is a function left open.)
-/

namespace PF

/-- A `double`. -/
inductive F64 where
  | fin (q : Rat)
  | notFinite
deriving Repr, DecidableEq

/-- `a / b` units rounded to `p` significant bits, to nearest, ties to even. -/
def roundSig (p a b : Nat) : Nat :=
  if a / b < 2 ^ p then roundEven a b
  else roundEven a (b * 2 ^ ((a / b).log2 - (p - 1))) * 2 ^ ((a / b).log2 - (p - 1))

/-- The largest finite `double`, in units of `2^-1074`. -/
def f64MaxUnits : Nat := (2 ^ 53 - 1) * 2 ^ 2045

/-- `n` units of `2^-1074`, with a sign. -/
def f64OfUnits (neg : Bool) (n : Nat) : Rat := (if neg then -(n : Rat) else n) / 2 ^ 1074

/-- The magnitude of the `double` nearest to a rational number, in units of `2^-1074`, were there no largest one. -/
def f64Units (q : Rat) : Nat := roundSig 53 (q.num.natAbs * 2 ^ 1074) q.den

/-- The result of an operation whose exact result is `q`. -/
def f64Round (q : Rat) : F64 :=
  if f64MaxUnits < f64Units q then .notFinite else .fin (f64OfUnits (decide (q < 0)) (f64Units q))

/-- `x * y`. -/
def F64.mul : F64 → F64 → F64
  | .fin x, .fin y => f64Round (x * y)
  | _, _ => .notFinite

/-- `x / y`, for a finite `y`; a division by zero gives an infinity or NaN. -/
def F64.div : F64 → F64 → F64
  | .fin x, .fin y => if y = 0 then .notFinite else f64Round (x / y)
  | _, _ => .notFinite

/-- The integer part of a number, towards zero. -/
def ratTrunc (q : Rat) : Int := q.num.tdiv q.den

/-- `(int64_t)x`: undefined for a number whose integer part is not an `int64_t`, in particular for one that is not
finite. -/
def F64.toInt64 : F64 → Out Int
  | .fin q => if -2 ^ 63 ≤ ratTrunc q ∧ ratTrunc q < 2 ^ 63 then .ok (ratTrunc q) else .abort
  | .notFinite => .abort

/-- `a + b` on `int64_t`: undefined on overflow. -/
def addInt64 (a b : Int) : Out Int :=
  if -2 ^ 63 ≤ a + b ∧ a + b < 2 ^ 63 then .ok (a + b) else .abort

/-- The functions `log` and `exp` of the C library, left open. -/
structure Libm where
  log : F64 → F64
  exp : F64 → F64

/-- An adaptation: the attributes of `CParameterAdaptation` (`_iOffset`), `CLinearParameterAdaptation`
(`_dSlopeNumerator`, `_dSlopeDenominator`) and, for a logarithmic one, of `CLogarithmicParameterAdaptation`
(`_dLogarithmBase`, `_dFloorValue`). -/
structure Adaptation where
  num : Rat
  den : Rat
  off : Int
  log : Option (F64 × F64)
deriving Repr, DecidableEq

/-- `CLinearParameterAdaptation::fromUserValue` (LinearParameterAdaptation.cpp:82-85) with
`CParameterAdaptation::fromUserValue` (ParameterAdaptation.cpp:76-79). -/
def Adaptation.linFrom (a : Adaptation) (d : F64) : Out Int :=
  ((d.mul (.fin a.num)).div (.fin a.den)).toInt64.bind fun n => addInt64 n a.off

/-- `CLinearParameterAdaptation::toUserValue` (LinearParameterAdaptation.cpp:87-90) with
`CParameterAdaptation::toUserValue` (ParameterAdaptation.cpp:81-84).  The subtraction does not overflow: `n` is in
the range of `int32_t` or `uint32_t`, the offset in that of `int32_t`. -/
def Adaptation.linTo (a : Adaptation) (n : Int) : F64 :=
  ((f64Round (n - a.off : Int)).mul (.fin a.den)).div (.fin a.num)

/-- `fromUserValue` (LinearParameterAdaptation.cpp:82-85, LogarithmicParameterAdaptation.cpp:76-80). -/
def Adaptation.fromUser (lm : Libm) (a : Adaptation) (d : F64) : Out Int :=
  match a.log with
  | none => a.linFrom d
  | some (base, floor) =>
    (a.linFrom ((lm.log d).div (lm.log base))).bind fun n =>
      floor.toInt64.bind fun f => .ok (if n < f then f else n)

/-- `toUserValue` (LinearParameterAdaptation.cpp:87-90, LogarithmicParameterAdaptation.cpp:82-85). -/
def Adaptation.toUser (lm : Libm) (a : Adaptation) (n : Int) : F64 :=
  match a.log with
  | none => a.linTo n
  | some (base, _) => lm.exp ((a.linTo n).mul (lm.log base))

/-- `TIntegerParameterType::toBlackboard(double)` (IntegerParameterType.h:172-198), for a type and the
adaptation it has, if any. -/
def IntType.fromDouble (lm : Libm) (t : IntType) (ad : Option Adaptation) (d : F64) : Out (BitVec 32) :=
  match ad with
  | none => .err
  | some a =>
    (a.fromUser lm d).bind fun n =>
      if n < t.min ∨ n > t.max then .err else .ok (BitVec.ofInt 32 n)

/-- `TIntegerParameterType::fromBlackboard(double)` (IntegerParameterType.h:236-265). -/
def IntType.toDouble (lm : Libm) (t : IntType) (ad : Option Adaptation) (v : BitVec 32) : Out F64 :=
  match ad with
  | none => .err
  | some a => .ok (a.toUser lm (if t.signed then (signExtend t.size v).toInt else v.toNat))

/-- `CParameter::access(double, true)`, up to the synchronisation (Parameter.cpp:134-188). -/
def setIntDouble (lm : Libm) (t : IntType) (ad : Option Adaptation) (b : Board) (off : Nat) (d : F64) :
    Out Unit × Board :=
  match t.fromDouble lm ad d with
  | .ok v => (writeScalar t.size b off v).withBoard b
  | .err => (.err, b)
  | .abort => (.abort, b)

/-- `CParameter::access(double, false)` (Parameter.cpp:134-171, 190-208). -/
def getIntDouble (lm : Libm) (t : IntType) (ad : Option Adaptation) (b : Board) (off : Nat) : Out F64 :=
  (readScalar t.size b off).bind fun v => t.toDouble lm ad v

/-- `getAttribute` into a `double` (XmlElement.cpp:98-113). -/
def SXml.dbl (x : SXml) (rd : Reader) (name : Str) (dflt : F64) : Out F64 :=
  match x.attr name with
  | none => .ok dflt
  | some t =>
    match rd.dbl t with
    | none => .err
    | some d => .ok (.fin (d.num / 2 ^ d.k))

/-- The value of a finite `double`. -/
def F64.val : F64 → Rat
  | .fin q => q
  | .notFinite => 0

/-- `CLinearParameterAdaptation::fromXml` (LinearParameterAdaptation.cpp:61-79) with
`CParameterAdaptation::fromXml` (ParameterAdaptation.cpp:66-73).  The defaults are those of
LinearParameterAdaptation.h:55-56 and ParameterAdaptation.h:63.  The numbers are finite: `convertTo<double>` gives no other
(convert.hpp:277-291). -/
def loadLinear (rd : Reader) (x : SXml) (log : Option (F64 × F64)) : Out Adaptation :=
  (x.dbl rd (s "SlopeNumerator") (.fin 1)).bind fun num =>
    (x.dbl rd (s "SlopeDenominator") (.fin 1)).bind fun den =>
      if den.val = 0 then .err
      else
        (x.num (s "Offset") true 32 0).bind fun off =>
          (noChildren x.children).bind fun _ => .ok ⟨num.val, den.val, off, log⟩

/-- `fromXml` of an adaptation, chosen by the tag (ParameterMgr.cpp:2781-2784); for a logarithmic one
`CLogarithmicParameterAdaptation::fromXml` (LogarithmicParameterAdaptation.cpp:58-74), with the defaults of
LogarithmicParameterAdaptation.h:74-78. -/
def loadAdaptation (rd : Reader) (lm : Libm) (x : SXml) : Out Adaptation :=
  if x.tag = s "LinearAdaptation" then loadLinear rd x none
  else if x.tag = s "LogarithmicAdaptation" then
    (x.dbl rd (s "LogarithmBase") (lm.exp (.fin 1))).bind fun base =>
      if (x.attr (s "LogarithmBase")).isSome ∧ (base.val ≤ 0 ∨ base.val = 1) then .err
      else
        (x.dbl rd (s "FloorValue") .notFinite).bind fun floor => loadLinear rd x (some (base, floor))
  else .err

end PF
