import Verif.Model.ScalarTypes

/-!
# Model of `parameter/StringParameter.cpp` and `parameter/ArrayParameter.cpp`
-/

namespace PF

/-! ## Strings

A string value is a list of bytes. -/

/-- `CStringParameter::getSize` (StringParameter.cpp:56-59). -/
def stringSize (maxLength : Nat) : Nat := maxLength + 1

/-- `CStringParameter::doSetValue` (StringParameter.cpp:71-88). -/
def setString (maxLength : Nat) (b : Board) (off : Nat) (t : List Byte) : Out Board :=
  if t.length ≥ stringSize maxLength then .err
  else
    match b.writeString off t with
    | some b' => .ok b'
    | none => .abort

/-- `CStringParameter::doGetValue` (StringParameter.cpp:90-94). -/
def getString (b : Board) (off : Nat) : Out (List Byte) :=
  match b.readString off with
  | some t => .ok t
  | none => .abort

/-- `CStringParameter::setDefaultValues` (StringParameter.cpp:62-68). -/
def setStringDefault (b : Board) (off : Nat) : Out Board :=
  match b.writeString off [] with
  | some b' => .ok b'
  | none => .abort

/-! ## Arrays -/

/-- An array parameter: scalar type of the elements and `ArrayLength`. -/
structure ArrayType where
  elem : ScalarType
  length : Nat
deriving Repr, DecidableEq

/-- `CArrayParameter::getFootPrint` (ArrayParameter.cpp:49-52). -/
def ArrayType.footprint (t : ArrayType) : Nat := t.elem.size * t.length

/-- The loop of both `setValues` (ArrayParameter.cpp:274-287, 361-371): converts and writes the
values one after the other and stops at the first one refused (`none`).  The memory comes with the
result because earlier values stay written. -/
def setElems (size : Nat) : Board → Nat → List (Option (BitVec 32)) → Out Unit × Board
  | b, _, [] => (.ok (), b)
  | b, _, none :: _ => (.err, b)
  | b, off, some v :: vs =>
    match writeScalar size b off v with
    | .ok b' => setElems size b' (off + size) vs
    | .err => (.err, b)
    | .abort => (.abort, b)

/-- Delimiters between the values of an array (ArrayParameter.cpp:255). -/
def arrayDelimiters : List Char := defaultDelimiters ++ [',']

/-- `setValues(size_t, size_t, const string &, ...)` (ArrayParameter.cpp:251-288). -/
def setArrayText (rd : Reader) (t : ArrayType) (ctx : Ctx) (b : Board) (start off : Nat)
    (text : Str) : Out Unit × Board :=
  let toks := tokenize arrayDelimiters true text
  if toks.length + start > t.length then (.err, b)
  else setElems t.elem.size b (off + start * t.elem.size)
    (toks.map (fun tok => t.elem.fromText rd ctx tok))

/-- The texts of `n` consecutive elements (loop of `getValues`, ArrayParameter.cpp:301-316). -/
def getElems (t : ScalarType) (ctx : Ctx) (b : Board) : (off n : Nat) → Out (List Str)
  | _, 0 => .ok []
  | off, n + 1 =>
    (getScalarText t ctx b off).bind fun w =>
      (getElems t ctx b (off + t.size) n).bind fun ws => .ok (w :: ws)

/-- The output of the loop of `getValues`: a space before every text but the first
(ArrayParameter.cpp:299-318). -/
def spaced : List Str → Str
  | [] => []
  | w :: ws => w ++ (ws.map (fun v => ' ' :: v)).flatten

/-- `getValues(size_t, ...)` (ArrayParameter.cpp:291-319). -/
def getArrayText (t : ArrayType) (ctx : Ctx) (b : Board) (off : Nat) : Out Str :=
  (getElems t.elem ctx b off t.length).bind fun ws => .ok (spaced ws)

/-- `std::istringstream >> size_t` (ArrayParameter.cpp:213-217): skips white space, reads an
optional sign and the longest prefix of decimal digits; fails without digit or on overflow; a
minus sign negates modulo 2^64. -/
def streamSize (t : Str) : Option Nat :=
  let r := splitSign (t.dropWhile (fun c => decide (c ∈ cSpaces)))
  match parseNat 10 (digitPrefix 10 r.2) with
  | none => none
  | some n => if n ≥ 2 ^ 64 then none else some (if r.1 then (2 ^ 64 - n) % 2 ^ 64 else n)

/-- `getIndex` (ArrayParameter.cpp:203-247); `items` are the path items left after the array.
`some none` is "no index". -/
def arrayIndex (t : ArrayType) (items : List Str) : Option (Option Nat) :=
  match items with
  | [] => some none
  | item :: rest =>
    match streamSize item with
    | none => none
    | some i =>
      if i ≥ t.length then none
      else if rest ≠ [] then none
      else some (some i)

/-- `accessValue` for a set (ArrayParameter.cpp:72-103), without the synchronisation.  `off` is the
offset of the array in its subsystem's memory and `base` the base offset of the context. -/
def arrayAccessSet (rd : Reader) (t : ArrayType) (ctx : Ctx) (b : Board) (off base : Nat)
    (items : List Str) (text : Str) : Out Unit × Board :=
  match arrayIndex t items with
  | none => (.err, b)
  | some i => if off < base then (.abort, b) else setArrayText rd t ctx b (i.getD 0) (off - base) text

/-- `accessValue` for a get (ArrayParameter.cpp:104-117): with an index, the base offset is not
subtracted. -/
def arrayAccessGet (t : ArrayType) (ctx : Ctx) (b : Board) (off base : Nat) (items : List Str) :
    Out Str :=
  match arrayIndex t items with
  | none => .err
  | some none => if off < base then .abort else getArrayText t ctx b (off - base)
  | some (some i) => getScalarText t.elem ctx b (off + i * t.elem.size)

/-- Typed `setValues` (ArrayParameter.cpp:352-373), for any conversion of the user's type.  `abort`
is the `assert` on the number of values. -/
def setArrayTyped {α : Type} (t : ArrayType) (conv : α → Option (BitVec 32)) (b : Board) (off : Nat)
    (vals : List α) : Out Unit × Board :=
  if vals.length ≠ t.length then (.abort, b) else setElems t.elem.size b off (vals.map conv)

/-- Typed `getValues` (ArrayParameter.cpp:376-398), for any conversion to the user's type that
cannot fail. -/
def getElemsTyped {α : Type} (size : Nat) (conv : BitVec 32 → α) (b : Board) : (off n : Nat) → Out (List α)
  | _, 0 => .ok []
  | off, n + 1 =>
    (readScalar size b off).bind fun v =>
      (getElemsTyped size conv b (off + size) n).bind fun vs => .ok (conv v :: vs)

/-- `CArrayParameter::setDefaultValues` (ArrayParameter.cpp:178-200). -/
def setArrayDefault (t : ArrayType) (b : Board) (off : Nat) : Out Unit × Board :=
  setElems t.elem.size b off (List.replicate t.length (some t.elem.default))

end PF
