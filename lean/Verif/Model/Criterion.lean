import Verif.Model.Tokenizer

/-!
# Model of selection criterion types and selection criteria

`parameter/SelectionCriterionType.cpp`, `parameter/SelectionCriterion.cpp`.

A C++ `int` is a `BitVec 32` (two's complement).
-/

namespace PF

/-- `std::map<std::string,int>` seen as its list of pairs in iteration order
(SelectionCriterionType.h `_numToLitMap`; keyed by the literal). -/
abbrev LitMap := List (Str × BitVec 32)

/-- A selection criterion type (SelectionCriterionType.h: `_bInclusive`, `_numToLitMap`). -/
structure CritType where
  inclusive : Bool
  map : LitMap
deriving Repr, DecidableEq

/-- `std::map::find` (used at SelectionCriterionType.cpp:69 and 121). -/
def LitMap.find (m : LitMap) (lit : Str) : Option (BitVec 32) :=
  match m with
  | [] => none
  | (l, v) :: rest => if l = lit then some v else LitMap.find rest lit

/-- `_numToLitMap[strValue] = iValue` for a literal that is not yet in the map
(SelectionCriterionType.cpp:88): the pair goes to its place in the key order. -/
def LitMap.insert (m : LitMap) (lit : Str) (v : BitVec 32) : LitMap :=
  match m with
  | [] => [(lit, v)]
  | (l, w) :: rest => if lit < l then (lit, v) :: (l, w) :: rest
                      else (l, w) :: LitMap.insert rest lit v

/-- Constructor (SelectionCriterionType.cpp:39-46). -/
def CritType.new (inclusive : Bool) : CritType :=
  { inclusive, map := if inclusive then [(s "none", 0#32)] else [] }

/-- Outcome of `addValuePair`.  `ub` is the undefined behaviour of `iValue - 1` for
`iValue = INT_MIN` (SelectionCriterionType.cpp:58, only evaluated for inclusive types). -/
inductive AddRes where
  | added (t : CritType)
  | rejected
  | ub
deriving Repr, DecidableEq

/-- `INT_MIN`. -/
def intMin : BitVec 32 := 0x80000000#32

/-- `CSelectionCriterionType::addValuePair` (SelectionCriterionType.cpp:54-91).
The error texts are not modelled. -/
def CritType.addValuePair (t : CritType) (v : BitVec 32) (lit : Str) : AddRes :=
  if t.inclusive && v == 0#32 then .rejected
  else if t.inclusive && v == intMin then .ub
  else if t.inclusive && (v &&& (v - 1#32)) != 0#32 then .rejected
  else if (t.map.find lit).isSome then .rejected
  else if t.map.any (fun p => p.2 == v) then .rejected
  else .added { t with map := t.map.insert lit v }

/-- One client call of `addValuePair`: the type is unchanged when the call is rejected
(SelectionCriterionType.cpp:65, 76, 85 return before line 88).  `none` is undefined behaviour. -/
def CritType.call (t : CritType) (c : BitVec 32 × Str) : Option CritType :=
  match t.addValuePair c.1 c.2 with
  | .added t' => some t'
  | .rejected => some t
  | .ub => none

/-- A history of client calls. -/
def CritType.run (t : CritType) : List (BitVec 32 × Str) → Option CritType
  | [] => some t
  | c :: cs => (t.call c).bind (fun t' => t'.run cs)

/-- `getAtomicNumericalValue` (SelectionCriterionType.cpp:118-130). -/
def CritType.atomic (t : CritType) (lit : Str) : Option (BitVec 32) := t.map.find lit

/-- The loop of `getNumericalValue` (SelectionCriterionType.cpp:93-116). -/
def CritType.orAll (t : CritType) : List Str → BitVec 32 → Option (BitVec 32)
  | [], acc => some acc
  | x :: xs, acc =>
    match t.atomic x with
    | none => none
    | some v => t.orAll xs (acc ||| v)

/-- `getNumericalValue` (SelectionCriterionType.cpp:93-116).  `none` is a `false` return; the
partially accumulated out parameter of that case is not modelled (callers discard it). -/
def CritType.numerical (t : CritType) (text : Str) : Option (BitVec 32) :=
  if t.inclusive then t.orAll (tokenize ['|'] true text) 0#32
  else t.atomic text

/-- `getLiteralValue` (SelectionCriterionType.cpp:132-146): first pair with that number. -/
def CritType.literal (t : CritType) (v : BitVec 32) : Option Str :=
  (t.map.find? (fun p => p.2 == v)).map (·.1)

/-- `listPossibleValues` (SelectionCriterionType.cpp:154-176). -/
def CritType.listPossibleValues (t : CritType) : Str :=
  '{' :: ((s ", ").intercalate (t.map.map (·.1)) ++ ['}'])

/-- `1 << bit` on `int` (SelectionCriterionType.cpp:190).  For bit 31 the C++ result is
implementation defined; the model takes the usual two's complement result. -/
def bitVal (bit : Nat) : BitVec 32 := 1#32 <<< bit

/-- The loop of `getFormattedState` over the bits `bit, bit+1, ...` (`n` of them)
(SelectionCriterionType.cpp:186-214).  `acc` is `strFormattedState`, `first` is `bFirst`. -/
def CritType.fmtLoop (t : CritType) (v : BitVec 32) : (n bit : Nat) → (first : Bool) → Str → Str
  | 0, _, _, acc => acc
  | n + 1, bit, first, acc =>
    let single := v &&& bitVal bit
    if single = 0#32 then t.fmtLoop v n (bit + 1) first acc
    else match t.literal single with
      | none => t.fmtLoop v n (bit + 1) first acc
      | some lit =>
        t.fmtLoop v n (bit + 1) false (if first then acc ++ lit else acc ++ ['|'] ++ lit)

/-- `getFormattedState` (SelectionCriterionType.cpp:179-228). -/
def CritType.formattedState (t : CritType) (v : BitVec 32) : Str :=
  let txt := if t.inclusive then t.fmtLoop v 32 0 true []
             else (t.literal v).getD []      -- the out parameter keeps its initial value ""
  if txt = [] then s "<none>" else txt

/-- A selection criterion (SelectionCriterion.h: name, `_pType`, `_iState`,
`_uiNbModifications`).  The type is held by value: types are only changed through
`addValuePair`, which the manager model does not interleave with rule evaluation. -/
structure Criterion where
  name : Str
  type : CritType
  state : BitVec 32
  nbModifications : BitVec 32
deriving Repr, DecidableEq

/-- `CSelectionCriterion::setCriterionState` (SelectionCriterion.cpp:63-86); logging is not
modelled.  `_uiNbModifications` is a `uint32_t` (SelectionCriterion.h:88): the increment wraps. -/
def Criterion.setState (c : Criterion) (v : BitVec 32) : Criterion :=
  if c.state ≠ v then { c with state := v, nbModifications := c.nbModifications + 1#32 } else c

/-- `hasBeenModified` (SelectionCriterion.cpp:51-54). -/
def Criterion.hasBeenModified (c : Criterion) : Bool := c.nbModifications != 0#32

/-- `resetModifiedStatus` (SelectionCriterion.cpp:56-59). -/
def Criterion.resetModified (c : Criterion) : Criterion := { c with nbModifications := 0#32 }

/-- What a client can do that matters to the modification status: set the state, or have
configurations applied (ParameterMgr.cpp:942-944 calls `resetModifiedStatus`). -/
inductive CritEvent where
  | set (v : BitVec 32)
  | apply
deriving Repr, DecidableEq

/-- Effect of an event on a criterion. -/
def Criterion.event (c : Criterion) : CritEvent → Criterion
  | .set v => c.setState v
  | .apply => c.resetModified

/-- `is`, `isNot`, `includes`, `excludes` (SelectionCriterion.cpp:106-126). -/
def Criterion.is (c : Criterion) (v : BitVec 32) : Bool := c.state == v
@[inherit_doc Criterion.is] def Criterion.isNot (c : Criterion) (v : BitVec 32) : Bool := c.state != v
@[inherit_doc Criterion.is] def Criterion.includes (c : Criterion) (v : BitVec 32) : Bool :=
  (c.state &&& v) == v
@[inherit_doc Criterion.is] def Criterion.excludes (c : Criterion) (v : BitVec 32) : Bool :=
  (c.state &&& v) == 0#32

/-- `CElement::getPathName` for a criterion (Element.cpp:267-276, kind at
SelectionCriterion.cpp:46-49). -/
def Criterion.pathName (c : Criterion) : Str :=
  if c.name ≠ [] then c.name else s "SelectionCriterion"

/-- `CSelectionCriteriaDefinition::getSelectionCriterion` (SelectionCriteriaDefinition.cpp:50-59,
`findChild` Element.cpp:464-488): index of the first criterion with that path name. -/
def findCriterion (cs : List Criterion) (name : Str) : Option Nat :=
  cs.findIdx? (fun c => c.pathName == name)

end PF
