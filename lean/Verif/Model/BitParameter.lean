import Verif.Model.ScalarTypes

/-!
# Model of `parameter/BitParameterType.cpp`, `BitParameter.cpp`, `BitParameterBlock.cpp`
-/

namespace PF

/-- A bit parameter type with the size in bytes of the block it belongs to
(BitParameterType.h: `_bitPos`, `_uiBitSize`, `_uiMax`; BitParameterBlockType.h: `_size`). -/
structure BitType where
  blockSize : Nat
  pos : Nat
  bits : Nat
  max : BitVec 64
deriving Repr, DecidableEq

/-- `getMaxEncodableValue` (BitParameterType.cpp:217-220).  The shift is undefined for a size of 0,
which is excluded by `BitType.load`'s well-formed results (see `BitType.load`). -/
def maxEncodable (bits : Nat) : BitVec 64 := BitVec.allOnes 64 >>> (64 - bits)

/-- `getMask` (BitParameterType.cpp:223-226). -/
def BitType.mask (t : BitType) : BitVec 64 := maxEncodable t.bits <<< t.pos

/-- `fromXml` (BitParameterType.cpp:74-117): the attributes `Pos`, `Size` and the optional `Max`.
The sum is a `size_t` and can wrap.  `abort` is the undefined shift of `getMaxEncodableValue`, by 64
for a size 0 and by more for a size above 64. -/
def BitType.load (blockSize pos bits : Nat) (max : Option (BitVec 64)) : Out BitType :=
  if (pos + bits) % 2 ^ 64 > blockSize * 8 then .err
  else if bits = 0 ∨ bits > 64 then .abort
  else
    match max with
    | none => .ok ⟨blockSize, pos, bits, maxEncodable bits⟩
    | some m => if m.toNat > (maxEncodable bits).toNat then .err else .ok ⟨blockSize, pos, bits, m⟩

/-- `toBlackboard(uint64_t, ...)` (BitParameterType.cpp:177-190); the text form (122-154) does the
same after `strtoull`. -/
def BitType.fromNum (t : BitType) (u data : BitVec 64) : Option (BitVec 64) :=
  if u.toNat > t.max.toNat then none
  else some ((data &&& ~~~t.mask) ||| (u <<< t.pos))

/-- `toBlackboard(const string &, ...)` (BitParameterType.cpp:122-154). -/
def BitType.fromText (t : BitType) (text : Str) (data : BitVec 64) : Option (BitVec 64) :=
  t.fromNum (strtoull text) data

/-- The field of the block, as both `fromBlackboard` compute it (BitParameterType.cpp:159, 196). -/
def BitType.field (t : BitType) (data : BitVec 64) : BitVec 64 := (data &&& t.mask) >>> t.pos

/-- `fromBlackboard(string &, ...)` (BitParameterType.cpp:156-173). -/
def BitType.toText (t : BitType) (ctx : Ctx) (data : BitVec 64) : Str :=
  if ctx.raw && ctx.hex then hexText 0 (t.field data).toNat else natText (t.field data).toNat

/-- `fromBlackboard(uint32_t &, ...)` (BitParameterType.cpp:193-197). -/
def BitType.toUInt (t : BitType) (data : BitVec 64) : BitVec 32 := (t.field data).setWidth 32

/-- `merge` (BitParameterType.cpp:200-203). -/
def BitType.merge (t : BitType) (origin new : BitVec 64) : BitVec 64 :=
  (origin &&& ~~~t.mask) ||| (new &&& t.mask)

/-- The block as a 64-bit integer (`readInteger` into a zeroed `uint64_t`, BitParameter.cpp:150). -/
def BitType.readBlock (t : BitType) (b : Board) (off : Nat) : Out (BitVec 64) :=
  match b.read off t.blockSize with
  | some bs => .ok (BitVec.ofNat 64 (decLE bs))
  | none => .abort

/-- `doSet` (BitParameter.cpp:141-162): read, modify, write. -/
def BitType.set (t : BitType) (conv : BitVec 64 → Option (BitVec 64)) (b : Board) (off : Nat) :
    Out Board :=
  (t.readBlock b off).bind fun data =>
    match conv data with
    | none => .err
    | some data' =>
      match b.write off (encLE t.blockSize data'.toNat) with
      | some b' => .ok b'
      | none => .abort

/-- Text set (BitParameter.cpp:67-71). -/
def setBitText (t : BitType) (b : Board) (off : Nat) (text : Str) : Out Board :=
  t.set (t.fromText text) b off

/-- Integer set (`access(uint32_t &, true, ...)`, BitParameter.cpp:113-138). -/
def setBitUInt (t : BitType) (b : Board) (off : Nat) (u : BitVec 32) : Out Board :=
  t.set (t.fromNum (u.setWidth 64)) b off

/-- Boolean set (BitParameter.cpp:80-110): only for fields of one bit. -/
def setBitBool (t : BitType) (b : Board) (off : Nat) (v : Bool) : Out Board :=
  if t.bits ≠ 1 then .err else setBitUInt t b off (if v then 1#32 else 0#32)

/-- Text get (BitParameter.cpp:73-77, 165-179). -/
def getBitText (t : BitType) (ctx : Ctx) (b : Board) (off : Nat) : Out Str :=
  (t.readBlock b off).bind fun data => .ok (t.toText ctx data)

/-- Integer get (BitParameter.cpp:113-138, 165-179). -/
def getBitUInt (t : BitType) (b : Board) (off : Nat) : Out (BitVec 32) :=
  (t.readBlock b off).bind fun data => .ok (t.toUInt data)

/-- Boolean get (BitParameter.cpp:80-110). -/
def getBitBool (t : BitType) (b : Board) (off : Nat) : Out Bool :=
  if t.bits ≠ 1 then .err else (getBitUInt t b off).bind fun u => .ok (u != 0#32)

/-- `CBitParameterBlock::setDefaultValues` (BitParameterBlock.cpp:62-76). -/
def setBitBlockDefault (size : Nat) (b : Board) (off : Nat) : Out Board :=
  match b.write off (encLE size 0) with
  | some b' => .ok b'
  | none => .abort

end PF
