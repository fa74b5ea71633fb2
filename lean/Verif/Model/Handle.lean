import Verif.Model.Domain

/-!
# Typed access to parameters

`parameter/ElementHandle.cpp` calls the typed `access` functions of `BaseParameter.cpp`,
`Parameter.cpp`, `ArrayParameter.cpp`, `StringParameter.cpp` and `BitParameter.cpp`.
-/

namespace PF

/-- A value of one of the C++ types of the typed access functions (ElementHandle.h:96-233).  `special` is a
`double` that is an infinity or not a number, converted from the `float` with the given bits. -/
inductive Atom where
  | bool (b : Bool)
  | uint (u : BitVec 32)
  | sint (i : BitVec 32)
  | dbl (d : Dbl)
  | special (v : BitVec 32)
  | str (t : Str)
deriving Repr, DecidableEq

/-- The argument of a `setAs...` function (ElementHandle.h:96-233): a value or a `std::vector`. -/
inductive HVal where
  | one (a : Atom)
  | bools (l : List Bool)
  | uints (l : List (BitVec 32))
  | sints (l : List (BitVec 32))
  | dbls (l : List Dbl)
  | strs (l : List Str)
deriving Repr, DecidableEq

/-- The values of a `std::vector` argument. -/
def HVal.atoms : HVal → List Atom
  | .one a => [a]
  | .bools l => l.map .bool
  | .uints l => l.map .uint
  | .sints l => l.map .sint
  | .dbls l => l.map .dbl
  | .strs l => l.map .str

/-- `getUserInputSize` (ElementHandle.cpp:44-57): 0 for what is not a vector. -/
def HVal.inputSize : HVal → Nat
  | .one _ => 0
  | .bools l => l.length
  | .uints l => l.length
  | .sints l => l.length
  | .dbls l => l.length
  | .strs l => l.length

/-- The access context of a handle (ParameterAccessContext.h:86-96): real value space, decimal
format. -/
def handleCtx : Ctx := ⟨false, false⟩

/-- The `toBlackboard` overloads of the scalar types; the ones a type does not define are those of
`CParameterType` (ParameterType.cpp:213-275) that refuse the conversion ("Unsupported conversion").
An integer type takes a `double` only with an adaptation (IntegerParameterType.h:172-198);
see `AdaptedHandle` for these.  Comparisons with a `double` that is not finite refuse it
(FixedPointParameterType.cpp:332-339, FloatingPointParameterType.cpp:259-274). -/
def ScalarType.ofAtom (rd : Reader) : ScalarType → Atom → Option (BitVec 32)
  | .bool, .bool b => some (boolFromBool b)
  | .bool, .uint u => boolFromUInt u
  | .int t, .uint u => t.fromUInt u
  | .int t, .sint i => t.fromInt i
  | .enum t, .sint i => t.fromInt handleCtx i
  | .fixed t, .dbl d => t.fromDbl d
  | .float t, .dbl d => t.fromDbl d
  | t, .str w => t.fromText rd handleCtx w
  | _, _ => none

/-- `access(value, true, ...)` for a value that is not a vector, up to the synchronisation
(Parameter.cpp:113-189, BaseParameter.cpp:94-160, BitParameter.cpp:80-138).  Arrays are refused
before (`checkSetValidity`); reaching one is an `abort`. -/
def setParamAtom (rd : Reader) (k : EKind) (b : Board) (off : Nat) (a : Atom) : Out Unit × Board :=
  match k with
  | .scalar t =>
    match t.ofAtom rd a with
    | none => (.err, b)
    | some v => (writeScalar t.size b off v).withBoard b
  | .string m =>
    match a with
    | .str w => (setString m b off (strBytes w)).withBoard b
    | _ => (.err, b)
  | .bit t =>
    match a with
    | .bool v => (setBitBool t b off v).withBoard b
    | .uint u => (setBitUInt t b off u).withBoard b
    | .str w => (setBitText t b off w).withBoard b
    | _ => (.err, b)
  | _ => (.abort, b)

/-- `access(value, true, ...)`, up to the synchronisation.  A vector is for an array
(ArrayParameter.cpp:133-166, 324-373); any other parameter refuses it, with a failed assertion if it
is a vector of texts (BaseParameter.cpp:101-181). -/
def setParamVal (rd : Reader) (k : EKind) (b : Board) (off : Nat) (v : HVal) : Out Unit × Board :=
  match k, v with
  | k, .one a => setParamAtom rd k b off a
  | .array t, v => setArrayTyped t (t.elem.ofAtom rd) b off v.atoms
  | _, .strs _ => (.abort, b)
  | _, _ => (.err, b)

/-- The types of the values of the typed get functions (ElementHandle.h:96-233). -/
inductive ATy where
  | bool | uint | sint | dbl | str
deriving Repr, DecidableEq

/-- The `fromBlackboard` overloads of the scalar types (ParameterType.cpp:213-275 for the ones they do
not define). -/
def ScalarType.toAtom (v : BitVec 32) : ScalarType → ATy → Out Atom
  | .bool, .bool => .ok (.bool (boolToBool v))
  | .bool, .uint => .ok (.uint (boolToUInt v))
  | .int t, .uint => .ok (.uint (t.toUInt v))
  | .int t, .sint => .ok (.sint (t.toInt v))
  | .enum t, .sint => .ok (.sint (t.toInt v))
  | .fixed t, .dbl => .ok (.dbl (t.readDbl v))
  | .float _, .dbl => .ok (if f32Finite v then .dbl (f32ToDbl v) else .special v)
  | t, .str => (t.toText handleCtx v).bind fun w => .ok (.str w)
  | _, _ => .err

/-- `access(value, false, ...)` for a value that is not a vector (Parameter.cpp:113-205,
BaseParameter.cpp:94-171, BitParameter.cpp:80-138, StringParameter.cpp:90-94). -/
def getParamAtom (k : EKind) (b : Board) (off : Nat) (ty : ATy) : Out Atom :=
  match k, ty with
  | .scalar t, ty => (readScalar t.size b off).bind fun v => t.toAtom v ty
  | .string _, .str => (getString b off).bind fun bs => .ok (.str (bytesStr bs))
  | .string _, _ => .err
  | .bit t, .bool => (getBitBool t b off).bind fun v => .ok (.bool v)
  | .bit t, .uint => (getBitUInt t b off).bind fun u => .ok (.uint u)
  | .bit t, .str => (getBitText t handleCtx b off).bind fun w => .ok (.str w)
  | .bit _, _ => .err
  | _, _ => .abort

/-- The loop of the typed `getValues` (ArrayParameter.cpp:376-398). -/
def getAtoms (t : ScalarType) (ty : ATy) (b : Board) : (off n : Nat) → Out (List Atom)
  | _, 0 => .ok []
  | off, n + 1 =>
    (readScalar t.size b off).bind fun v =>
      (t.toAtom v ty).bind fun a =>
        (getAtoms t ty b (off + t.size) n).bind fun as => .ok (a :: as)

/-- `isArray` (ElementHandle.cpp:89-107): the arrays are the parameters of type `CArrayParameter`. -/
def EKind.arrayLength : EKind → Nat
  | .array t => t.length
  | _ => 0

/-- `checkGetValidity` (ElementHandle.cpp:344-361). -/
def EKind.getValid (k : EKind) (asArray : Bool) : Bool :=
  k.isParameter && asArray == decide (k.arrayLength ≠ 0)

/-- `getAs` (ElementHandle.cpp:224-238) for a value that is not a vector, on the main blackboard. -/
def Elem.getAs (root : Elem) (b : Board) (p : Pos) (ty : ATy) : Out Atom :=
  match root.at? p, root.offset 0 p with
  | some e, some off => if e.kind.getValid false then getParamAtom e.kind b off ty else .err
  | _, _ => .abort

/-- `getAs` (ElementHandle.cpp:224-238) for a vector. -/
def Elem.getAsArray (root : Elem) (b : Board) (p : Pos) (ty : ATy) : Out (List Atom) :=
  match root.at? p, root.offset 0 p with
  | some e, some off =>
    match e.kind with
    | .array t => if t.length ≠ 0 then getAtoms t.elem ty b off t.length else .err
    | _ => .err
  | _, _ => .abort

/-! ## Rogue elements -/

/-- `hasNoDomainAssociated` (ConfigurableElement.cpp:518-521). -/
def Attached.noneAt (att : Attached) (p : Pos) : Bool := att.all (fun a => a.1 ≠ p)

mutual
/-- `doAggregate` (ConfigurableElementAggregator.cpp:47-83) with the criterion `ok`: does the element
match, and what it adds to the list. -/
def Elem.aggregate (ok : Pos → Bool) : Pos → Elem → Bool × List Pos
  | p, .mk _ _ _ cs =>
    if !ok p then (false, [])
    else if (Elem.aggregateAll ok p 0 cs).1 = cs.length then (true, [p])
    else (false, (Elem.aggregateAll ok p 0 cs).2)
/-- The loop over the children (ConfigurableElementAggregator.cpp:58-68): how many match, and the
list. -/
def Elem.aggregateAll (ok : Pos → Bool) : Pos → Nat → List Elem → Nat × List Pos
  | _, _, [] => (0, [])
  | p, i, c :: cs =>
    ((Elem.aggregate ok (p ++ [i]) c).1.toNat + (Elem.aggregateAll ok p (i + 1) cs).1,
     (Elem.aggregate ok (p ++ [i]) c).2 ++ (Elem.aggregateAll ok p (i + 1) cs).2)
end

/-- `_configurableDomainList` of an element, in the order of the associations
(ConfigurableElement.cpp:418-429). -/
def Attached.domainsAt (att : Attached) (p : Pos) : List Nat := (att.filter (fun a => a.1 = p)).map (·.2)

/-- `getBelongingDomains` (ConfigurableElement.cpp:441-454): the domains of the element, then those of its
parent, and so on up to the system class. -/
def Attached.belonging (att : Attached) (p : Pos) : List Nat :=
  (List.range (p.length + 1)).reverse.flatMap fun n => att.domainsAt (p.take n)

/-- `getBelongingDomainCount` (ConfigurableElement.cpp:555-563). -/
def Attached.belongingCount (att : Attached) (p : Pos) : Nat := (att.belonging p).length

/-- `isRogue` (ConfigurableElement.cpp:490-508). -/
def Elem.isRogue (root : Elem) (att : Attached) (p : Pos) : Bool :=
  match root.at? p with
  | none => false
  | some e => decide (att.belongingCount p = 0) && decide ((e.aggregate att.noneAt p).2 = [p])

/-- The elements of `listRogueElements` on the system class (ConfigurableElement.cpp:469-488). -/
def Elem.rogueList (root : Elem) (att : Attached) : List Pos := (root.aggregate att.noneAt []).2

/-- `listRogueElements` (ConfigurableElement.cpp:480-487): one path per line. -/
def Elem.rogueText (root : Elem) (att : Attached) : Str :=
  ((root.rogueList att).map (fun p => (root.path p).getD [] ++ ['\n'])).flatten

/-- `checkSetValidity` (ElementHandle.cpp:364-386). -/
def Elem.setValid (root : Elem) (att : Attached) (p : Pos) (v : HVal) : Bool :=
  match root.at? p with
  | none => false
  | some e =>
    e.kind.getValid (decide (v.inputSize ≠ 0)) && root.isRogue att p &&
      (v.inputSize == 0 || v.inputSize == e.kind.arrayLength)

end PF
