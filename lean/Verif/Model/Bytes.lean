import Verif.Model.Tokenizer

/-!
# Model of `parameter/ParameterBlackboard.cpp`

Memory areas as lists of bytes.
-/

namespace PF

/-- Outcome of an operation of the C++ code.
* `ok`: success, with the result;
* `err`: the operation reported a failure to its caller;
* `abort`: the process ends (`ALWAYS_ASSERT`, `std::terminate`) or the behaviour is undefined. -/
inductive Out (α : Type) where
  | ok (a : α)
  | err
  | abort
deriving Repr, DecidableEq

/-- Sequencing of operations. -/
def Out.bind {α β : Type} (x : Out α) (f : α → Out β) : Out β :=
  match x with
  | .ok a => f a
  | .err => .err
  | .abort => .abort

/-- One byte. -/
abbrev Byte := BitVec 8

/-- Content of a blackboard (`mBlackboard`, ParameterBlackboard.h). -/
abbrev Board := List Byte

/-- `CParameterBlackboard::writeBytes`, `writeInteger`, `writeBuffer`, `restoreFrom`
(ParameterBlackboard.cpp:98-103, 47-56, 88-91, 120-125): all copy a byte string to an offset
after `assertValidAccess` (134-139); `none` is the abort of `assertValidAccess`. -/
def Board.write (b : Board) (off : Nat) (bs : List Byte) : Option Board :=
  if off + bs.length ≤ b.length then some (b.take off ++ bs ++ b.drop (off + bs.length)) else none

/-- `CParameterBlackboard::readBytes`, `readInteger`, `readBuffer`, `saveTo`
(ParameterBlackboard.cpp:105-110, 58-67, 92-95, 127-132). -/
def Board.read (b : Board) (off size : Nat) : Option (List Byte) :=
  if off + size ≤ b.length then some ((b.drop off).take size) else none

/-- Little endian bytes of an unsigned integer, as `writeInteger(&uiData, size, offset)` lays them
out ("this code works on little endian architectures only", Parameter.cpp:184). -/
def encLE : (size : Nat) → (v : Nat) → List Byte
  | 0, _ => []
  | n + 1, v => BitVec.ofNat 8 v :: encLE n (v / 256)

/-- Integer made by `readInteger(&uiData, size, offset)` on a zeroed variable
(Parameter.cpp:192-205). -/
def decLE : List Byte → Nat
  | [] => 0
  | b :: bs => b.toNat + 256 * decLE bs

/-- `writeString` (ParameterBlackboard.cpp:69-75): the bytes of the text and a NUL. -/
def Board.writeString (b : Board) (off : Nat) (t : List Byte) : Option Board :=
  b.write off (t ++ [0#8])

/-- Outcome of reading a C string: the bytes before the first NUL, or `none` when there is no NUL
up to the end of the blackboard (the C++ code then reads outside the vector). -/
def cString : List Byte → Option (List Byte)
  | [] => none
  | b :: bs => if b = 0#8 then some [] else (cString bs).map (b :: ·)

/-- `readString` (ParameterBlackboard.cpp:77-86). -/
def Board.readString (b : Board) (off : Nat) : Option (List Byte) :=
  if off + 1 ≤ b.length then cString (b.drop off) else none

end PF
