import Verif.Model.Bytes
import Verif.Model.Float32

/-!
# Model of the scalar parameter types

`parameter/ParameterType.*`, `IntegerParameterType.h`, `BaseIntegerParameterType.cpp`,
`EnumParameterType.cpp`, `BooleanParameterType.cpp`, `FixedPointParameterType.cpp`,
`FloatingPointParameterType.cpp`.

Raw data travelling to and from the blackboard is a `uint32_t`: `BitVec 32`.  Error texts are not
modelled: `none` is a refused value.
-/

namespace PF

/-- Formatting options of an access context (ParameterAccessContext.h: value space and raw output
format). -/
structure Ctx where
  raw : Bool
  hex : Bool
deriving Repr, DecidableEq

/-- `CParameterType::doSignExtend` on `int32_t` (ParameterType.cpp:151-161) for a type of `size`
bytes.  The left shift of a negative number is taken as two's complement. -/
def signExtend (size : Nat) (v : BitVec 32) : BitVec 32 :=
  (v <<< (8 * (4 - size))).sshiftRight (8 * (4 - size))

/-- `doIsEncodable` on `uint32_t` (ParameterType.cpp:176-199). -/
def isEncodable (size : Nat) (v : BitVec 32) (signed : Bool) : Bool :=
  if size = 4 then true
  else if !signed then decide (v >>> (size * 8) = 0#32)
  else if (v &&& (1#32 <<< (size * 8 - 1))) != 0#32 then decide (~~~v >>> (size * 8) = 0#32)
  else decide (v >>> (size * 8) = 0#32)

/-! ## Integer -/

/-- An integer type (IntegerParameterType.h: template arguments `isSigned`, `bitSize`, members
`_min`, `_max`). -/
structure IntType where
  signed : Bool
  size : Nat
  min : Int
  max : Int
deriving Repr, DecidableEq

/-- Conversion of an integer to `CType` (`static_cast<CType>`), in two's complement. -/
def IntType.toCType (t : IntType) (n : Int) : Int :=
  if t.signed then Int.bmod n (2 ^ (8 * t.size)) else n % (2 ^ (8 * t.size) : Nat)

/-- `checkValueAgainstRange` (IntegerParameterType.h:308-342). -/
def IntType.inRange (t : IntType) (n : Int) : Bool := !(decide (n < t.min) || decide (n > t.max))

/-- `toBlackboard(const std::string &, ...)` (IntegerParameterType.h:200-234): a signed type reads
hexadecimal texts through the unsigned type. -/
def IntType.fromText (t : IntType) (text : Str) : Option (BitVec 32) :=
  let inter :=
    if t.signed && isHexadecimal text then convertTo false (8 * t.size) text
    else convertTo t.signed (8 * t.size) text
  match inter with
  | none => none
  | some n =>
    let value := t.toCType n
    if t.inRange value then some (BitVec.ofInt 32 value) else none

/-- `fromBlackboard(std::string &, ...)` (IntegerParameterType.h:113-148). -/
def IntType.toText (t : IntType) (ctx : Ctx) (v : BitVec 32) : Str :=
  if ctx.raw && ctx.hex then hexText (t.size * 2) v.toNat
  else if t.signed then intText (signExtend t.size v).toInt
  else natText v.toNat

/-- `doToBlackboard<uint32_t>` (IntegerParameterType.h:70-86): the bounds are cast to the user
type. -/
def IntType.fromUInt (t : IntType) (u : BitVec 32) : Option (BitVec 32) :=
  if u.toNat < (BitVec.ofInt 32 t.min).toNat || u.toNat > (BitVec.ofInt 32 t.max).toNat then none
  else some u

/-- `doToBlackboard<int32_t>` (IntegerParameterType.h:70-86). -/
def IntType.fromInt (t : IntType) (i : BitVec 32) : Option (BitVec 32) :=
  if i.toInt < (BitVec.ofInt 32 t.min).toInt || i.toInt > (BitVec.ofInt 32 t.max).toInt then none
  else some i

/-- `fromBlackboard(uint32_t &, ...)` (BaseIntegerParameterType.cpp:50-57). -/
def IntType.toUInt (_t : IntType) (v : BitVec 32) : BitVec 32 := v

/-- `fromBlackboard(int32_t &, ...)` (BaseIntegerParameterType.cpp:58-70): sign extends whatever
the signedness of the type. -/
def IntType.toInt (t : IntType) (v : BitVec 32) : BitVec 32 := signExtend t.size v

/-- `getDefaultValue` (IntegerParameterType.h:270). -/
def IntType.default (t : IntType) : BitVec 32 := BitVec.ofInt 32 t.min

/-! ## Enumeration -/

/-- An enum type (EnumParameterType.cpp): size in bytes and the value pairs in order. -/
structure EnumType where
  size : Nat
  pairs : List (Str × BitVec 32)
deriving Repr, DecidableEq

/-- `getMax` (EnumParameterType.cpp:128-131, `getMaxValue` ParameterType.h:141-149). -/
def EnumType.maxVal (t : EnumType) : Int :=
  if t.size < 4 then (2 ^ (8 * t.size - 1) : Nat) - 1 else 2147483647

/-- `getMin` (EnumParameterType.cpp:122-126). -/
def EnumType.minVal (t : EnumType) : Int := -t.maxVal - 1

/-- `getLiteral` (EnumParameterType.cpp:223-241). -/
def EnumType.literal (t : EnumType) (v : BitVec 32) : Option Str :=
  (t.pairs.find? (fun p => p.2 == v)).map (·.1)

/-- `getNumerical` (EnumParameterType.cpp:243-261). -/
def EnumType.numerical (t : EnumType) (l : Str) : Option (BitVec 32) :=
  (t.pairs.find? (fun p => p.1 == l)).map (·.2)

/-- `toBlackboard(int32_t, ...)` (EnumParameterType.cpp:166-195) with `checkValueAgainstSpace`
(264-280). -/
def EnumType.fromInt (t : EnumType) (ctx : Ctx) (i : BitVec 32) : Option (BitVec 32) :=
  let i := if ctx.raw then signExtend t.size i else i
  if !(t.pairs.any (fun p => p.2 == i)) then none
  else if i.toInt < t.minVal || i.toInt > t.maxVal then none
  else some i

/-- `toBlackboard(const std::string &, ...)` (EnumParameterType.cpp:95-120). -/
def EnumType.fromText (t : EnumType) (ctx : Ctx) (text : Str) : Option (BitVec 32) :=
  match convertTo true 32 text with
  | some n => t.fromInt ctx (BitVec.ofInt 32 n)
  | none =>
    match t.numerical text with
    | none => none
    | some v => t.fromInt ctx v

/-- `fromBlackboard(std::string &, ...)` (EnumParameterType.cpp:133-164).  `abort` is the undefined
shift of `makeEncodable` (ParameterType.cpp:202-209) when a 32-bit enum is printed in
hexadecimal.  When no literal matches, the C++ output is left as the caller set it; callers pass
an empty text. -/
def EnumType.toText (t : EnumType) (ctx : Ctx) (v : BitVec 32) : Out Str :=
  if ctx.raw then
    if ctx.hex then
      if t.size ≥ 4 then .abort
      else .ok (hexText (t.size * 2) (v &&& (1#32 <<< (t.size * 8) - 1#32)).toNat)
    else .ok (natText v.toNat)
  else .ok ((t.literal (signExtend t.size v)).getD [])

/-- `fromBlackboard(int32_t &, ...)` (EnumParameterType.cpp:197-208). -/
def EnumType.toInt (t : EnumType) (v : BitVec 32) : BitVec 32 := signExtend t.size v

/-- `getDefaultValue` (EnumParameterType.cpp:211-220). -/
def EnumType.default (t : EnumType) : BitVec 32 :=
  match t.pairs with
  | [] => 0#32
  | p :: _ => p.2

/-! ## Boolean -/

/-- `toBlackboard(const std::string &, ...)` (BooleanParameterType.cpp:47-72). -/
def boolFromText (text : Str) : Option (BitVec 32) :=
  if text = s "1" ∨ text = s "0x1" then some 1#32
  else if text = s "0" ∨ text = s "0x0" then some 0#32
  else none

/-- `fromBlackboard(std::string &, ...)` (BooleanParameterType.cpp:74-85). -/
def boolToText (ctx : Ctx) (v : BitVec 32) : Str :=
  let t := if v ≠ 0#32 then s "1" else s "0"
  if ctx.raw && ctx.hex then s "0x" ++ t else t

/-- `toBlackboard(bool, ...)` (BooleanParameterType.cpp:88-94). -/
def boolFromBool (b : Bool) : BitVec 32 := if b then 1#32 else 0#32

/-- `fromBlackboard(bool &, ...)` (BooleanParameterType.cpp:96-102). -/
def boolToBool (v : BitVec 32) : Bool := v != 0#32

/-- `toBlackboard(uint32_t, ...)` (BooleanParameterType.cpp:105-117). -/
def boolFromUInt (u : BitVec 32) : Option (BitVec 32) := if u.toNat > 1 then none else some u

/-- `fromBlackboard(uint32_t &, ...)` (BooleanParameterType.cpp:119-125). -/
def boolToUInt (v : BitVec 32) : BitVec 32 := if v ≠ 0#32 then 1#32 else 0#32

/-! ## Fixed point -/

/-- Fixed-point type (FixedPointParameterType.cpp:90-116): size in bytes, Q notation. -/
structure FixedType where
  size : Nat
  integral : Nat
  fractional : Nat
deriving Repr, DecidableEq

/-- `getUtilSizeInBits` (FixedPointParameterType.cpp:271-274). -/
def FixedType.utilBits (t : FixedType) : Nat := t.integral + t.fractional + 1

/-- `checkValueAgainstRange` (FixedPointParameterType.cpp:332-339) with `getRange` (277-281),
comparing exactly. -/
def FixedType.inRange (t : FixedType) (d : Dbl) : Bool :=
  decide (d.num * (2 ^ t.fractional : Nat) ≤ ((2 ^ (t.integral + t.fractional) : Nat) - 1 : Int) * (2 ^ d.k : Nat)) &&
  decide (d.num * (2 ^ t.fractional : Nat) ≥ -((2 ^ (t.integral + t.fractional) : Nat) : Int) * (2 ^ d.k : Nat))

/-- `round(num / 2^k)`: nearest integer, halves away from zero. -/
def roundDiv (num : Int) (k : Nat) : Int :=
  if num ≥ 0 then (2 * num + (2 ^ k : Nat)) / (2 ^ (k + 1) : Nat)
  else -((2 * (-num) + (2 ^ k : Nat)) / (2 ^ (k + 1) : Nat))

/-- `doubleToBinaryQnm` (FixedPointParameterType.cpp:342-352): scale, round, left justify. -/
def FixedType.toBinary (t : FixedType) (d : Dbl) : BitVec 32 :=
  BitVec.ofInt 32 (roundDiv (d.num * (2 ^ t.fractional : Nat)) d.k) <<< (t.size * 8 - t.utilBits)

/-- `binaryQnmToDouble` (FixedPointParameterType.cpp:354-359). -/
def FixedType.toDbl (t : FixedType) (v : BitVec 32) : Dbl :=
  { num := (v.sshiftRight (t.size * 8 - t.utilBits)).toInt, k := t.fractional }

/-- `toBlackboard(double, ...)` (FixedPointParameterType.cpp:231-252). -/
def FixedType.fromDbl (t : FixedType) (d : Dbl) : Option (BitVec 32) :=
  if t.inRange d then some (t.toBinary d) else none

/-- `fromBlackboard(double &, ...)` (FixedPointParameterType.cpp:254-268).  The value read from the
blackboard has no bit above the size, so the `assert` holds. -/
def FixedType.readDbl (t : FixedType) (v : BitVec 32) : Dbl := t.toDbl (signExtend t.size v)

/-- `toBlackboard(const std::string &, ...)` (FixedPointParameterType.cpp:119-142, 283-329).
`rd` reads real numbers, see `Reader`. -/
def FixedType.fromText (t : FixedType) (rd : Reader) (ctx : Ctx) (text : Str) :
    Option (BitVec 32) :=
  if isHexadecimal text && !ctx.raw then none
  else if ctx.raw then
    if isHexadecimal text then
      match convertTo false 32 text with
      | none => none
      | some n =>
        let v := BitVec.ofInt 32 n
        if isEncodable t.size v false then some (signExtend t.size v) else none
    else
      match convertTo true 32 text with
      | none => none
      | some n =>
        let v := BitVec.ofInt 32 n
        if isEncodable t.size v true then some v else none
  else
    match rd.dbl text with
    | none => none
    | some d => t.fromDbl d

/-- `stream << std::fixed << std::setprecision(m) << d` for `d = num / 2^m`: the expansion with
`m` digits is exact because `10^m` is a multiple of `2^m`. -/
def fixedText (m : Nat) (num : Int) : Str :=
  let a := num.natAbs
  let sign := if num < 0 then ['-'] else []
  let ip := a / 2 ^ m
  let fp := (a % 2 ^ m) * 5 ^ m
  sign ++ natText ip ++ (if m = 0 then [] else '.' :: fracDigits m fp)

/-- `fromBlackboard(std::string &, ...)` (FixedPointParameterType.cpp:190-228). -/
def FixedType.toText (t : FixedType) (ctx : Ctx) (v : BitVec 32) : Str :=
  if ctx.raw then
    if ctx.hex then hexText (t.size * 2) v.toNat
    else intText (signExtend t.size v).toInt
  else fixedText t.fractional (t.readDbl v).num

/-! ## Floating point -/

/-- A floating-point type (FloatingPointParameterType.h:87-90): the bits of `_fMin` and `_fMax`.  The size is
always 32 bits (FloatingPointParameterType.cpp:87-103). -/
structure FloatType where
  min : BitVec 32
  max : BitVec 32
deriving Repr, DecidableEq

/-- `checkValueAgainstRange(float)` (FloatingPointParameterType.cpp:271-274).  The bounds are finite
(`getAttribute` refuses others), so that no comparison with an infinity or a NaN holds both ways. -/
def FloatType.inRange (t : FloatType) (v : BitVec 32) : Bool :=
  f32Finite v && (decide (f32Units v ≤ f32Units t.max) && decide (f32Units v ≥ f32Units t.min))

/-- `checkValueAgainstRange(double)` (FloatingPointParameterType.cpp:259-269). -/
def FloatType.inRangeDbl (t : FloatType) (d : Dbl) : Bool :=
  if d.num.natAbs * 2 ^ 149 > f32MaxUnits * 2 ^ d.k then false else t.inRange (f32OfDbl d)

/-- `toBlackboard(const std::string &, ...)` (FloatingPointParameterType.cpp:116-176).  `convertTo<float>` gives
finite numbers only. -/
def FloatType.fromText (t : FloatType) (rd : Reader) (ctx : Ctx) (text : Str) : Option (BitVec 32) :=
  if isHexadecimal text && !ctx.raw then none
  else if ctx.raw then
    match convertTo false 32 text with
    | none => none
    | some n =>
      let v := BitVec.ofInt 32 n
      if !f32Finite v then none
      else if t.inRange v then some v
      else none
  else
    match rd.flt text with
    | none => none
    | some v => if t.inRange v then some v else none

/-- `std::showbase << std::hex << std::setw(width) << std::setfill('0') << n`
(FloatingPointParameterType.cpp:215-219): lower case digits, a prefix unless the number is zero, and padding before
the prefix, as the stream is not told to pad internally. -/
def showbaseHex (width n : Nat) : Str :=
  let ds : Str := if n = 0 then ['0'] else '0' :: 'x' :: (natDigits 16 (n + 1) n).map Char.toLower
  List.replicate (width - ds.length) '0' ++ ds

/-- `fromBlackboard(std::string &, ...)` (FloatingPointParameterType.cpp:205-231). -/
def FloatType.toText (_t : FloatType) (ctx : Ctx) (v : BitVec 32) : Str :=
  if ctx.raw then
    if ctx.hex then showbaseHex (4 * 2) v.toNat
    else natText v.toNat
  else f32Text v

/-- `toBlackboard(double, ...)` (FloatingPointParameterType.cpp:234-247).  A double that is not finite fails the
range check. -/
def FloatType.fromDbl (t : FloatType) (d : Dbl) : Option (BitVec 32) :=
  if t.inRangeDbl d then some (f32OfDbl d) else none

/-! ## All scalar types -/

/-- The scalar parameter types. -/
inductive ScalarType where
  | bool
  | int (t : IntType)
  | enum (t : EnumType)
  | fixed (t : FixedType)
  | float (t : FloatType)
deriving Repr, DecidableEq

/-- `getSize` (ParameterType.cpp:59-62); booleans are one byte (BooleanParameterType.cpp:36-39). -/
def ScalarType.size : ScalarType → Nat
  | .bool => 1
  | .int t => t.size
  | .enum t => t.size
  | .fixed t => t.size
  | .float _ => 4

/-- Text to raw data, any scalar type. -/
def ScalarType.fromText (rd : Reader) (ctx : Ctx) (text : Str) :
    ScalarType → Option (BitVec 32)
  | .bool => boolFromText text
  | .int t => t.fromText text
  | .enum t => t.fromText ctx text
  | .fixed t => t.fromText rd ctx text
  | .float t => t.fromText rd ctx text

/-- Raw data to text, any scalar type. -/
def ScalarType.toText (ctx : Ctx) (v : BitVec 32) : ScalarType → Out Str
  | .bool => .ok (boolToText ctx v)
  | .int t => .ok (t.toText ctx v)
  | .enum t => t.toText ctx v
  | .fixed t => .ok (t.toText ctx v)
  | .float t => .ok (t.toText ctx v)

/-- Default raw value (simulation), any scalar type (ParameterType.cpp:123-126 for the others). -/
def ScalarType.default : ScalarType → BitVec 32
  | .int t => t.default
  | .enum t => t.default
  | _ => 0#32

/-- `CParameter::doSet` / `CArrayParameter::doSet` after a successful conversion
(Parameter.cpp:172-189, ArrayParameter.cpp:401-418). -/
def writeScalar (size : Nat) (b : Board) (off : Nat) (v : BitVec 32) : Out Board :=
  match b.write off (encLE size v.toNat) with
  | some b' => .ok b'
  | none => .abort

/-- `CParameter::doGet` up to the conversion (Parameter.cpp:192-205). -/
def readScalar (size : Nat) (b : Board) (off : Nat) : Out (BitVec 32) :=
  match b.read off size with
  | some bs => .ok (BitVec.ofNat 32 (decLE bs))
  | none => .abort

/-- `CParameter::doSetValue` (Parameter.cpp:100-104). -/
def setScalarText (rd : Reader) (t : ScalarType) (ctx : Ctx) (b : Board) (off : Nat)
    (text : Str) : Out Board :=
  match t.fromText rd ctx text with
  | none => .err
  | some v => writeScalar t.size b off v

/-- `CParameter::doGetValue` (Parameter.cpp:106-110). -/
def getScalarText (t : ScalarType) (ctx : Ctx) (b : Board) (off : Nat) : Out Str :=
  (readScalar t.size b off).bind (t.toText ctx)

/-! ## Typed access to integer parameters -/

/-- Typed set of an integer parameter through `setAsInteger` (`u`) and the memory write
(Parameter.cpp:142-189, IntegerParameterType.h:70-86). -/
def setUInt (t : IntType) (b : Board) (off : Nat) (u : BitVec 32) : Out Board :=
  match t.fromUInt u with
  | none => .err
  | some v => writeScalar t.size b off v

/-- Typed get through `getAsInteger` (Parameter.cpp:192-205, BaseIntegerParameterType.cpp:50-57). -/
def getUInt (t : IntType) (b : Board) (off : Nat) : Out (BitVec 32) :=
  (readScalar t.size b off).bind (fun v => .ok (t.toUInt v))

/-- `setAsSignedInteger` (Parameter.cpp:142-189, IntegerParameterType.h:70-86). -/
def setSInt (t : IntType) (b : Board) (off : Nat) (i : BitVec 32) : Out Board :=
  match t.fromInt i with
  | none => .err
  | some v => writeScalar t.size b off v

/-- `getAsSignedInteger` (Parameter.cpp:192-205, BaseIntegerParameterType.cpp:58-70). -/
def getSInt (t : IntType) (b : Board) (off : Nat) : Out (BitVec 32) :=
  (readScalar t.size b off).bind (fun v => .ok (t.toInt v))

/-! ## Typed access to fixed-point parameters -/

/-- `setAsDouble` (Parameter.cpp:142-189, FixedPointParameterType.cpp:231-252). -/
def setDbl (t : FixedType) (b : Board) (off : Nat) (d : Dbl) : Out Board :=
  match t.fromDbl d with
  | none => .err
  | some v => writeScalar t.size b off v

/-- `getAsDouble` (Parameter.cpp:192-205, FixedPointParameterType.cpp:254-268). -/
def getDbl (t : FixedType) (b : Board) (off : Nat) : Out Dbl :=
  (readScalar t.size b off).bind (fun v => .ok (t.readDbl v))

end PF
