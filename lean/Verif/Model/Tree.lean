import Verif.Model.BitParameter
import Verif.Model.StringArray

/-!
# Model of the structure tree

`parameter/Element.cpp`, `ConfigurableElement.cpp`, `InstanceConfigurableElement.cpp`,
`PathNavigator.cpp`, `ElementLocator.cpp`, and the offsets computed by
`CParameterMgr::loadStructure`.

The root of a model tree is the `SystemClass` object; its parent (the `CParameterMgr` object) is not
a configurable element and is left out.
-/

namespace PF

/-- The class of a configurable element.  `group` stands for `CSystemClass`, `CSubsystem`,
`CComponent` and `CParameterBlock` (with the text returned by `getKind`), which all use the memory
functions of `CConfigurableElement` unchanged. -/
inductive EKind where
  | group (kind : Str)
  | bitBlock (size : Nat)
  | scalar (t : ScalarType)
  | array (t : ArrayType)
  | string (maxLength : Nat)
  | bit (t : BitType)
deriving Repr, DecidableEq

/-- A configurable element: name (Element.h `_strName`), class, `_pSyncer`
(InstanceConfigurableElement.h; the number identifies the syncer object) and children. -/
inductive Elem where
  | mk (name : Str) (kind : EKind) (syncer : Option Nat) (children : List Elem)
deriving Repr

/-- `getName` (Element.cpp:240-243). -/
def Elem.name : Elem → Str | .mk n _ _ _ => n
/-- The class of the element. -/
def Elem.kind : Elem → EKind | .mk _ k _ _ => k
/-- `_pSyncer` (InstanceConfigurableElement.h). -/
def Elem.syncer : Elem → Option Nat | .mk _ _ sy _ => sy
/-- `_childArray` (Element.h). -/
def Elem.children : Elem → List Elem | .mk _ _ _ cs => cs

/-- Kind of a scalar parameter (`getKind` of the parameter types: BooleanParameterType.cpp:42,
IntegerParameterType.h, EnumParameterType.cpp:48, FixedPointParameterType.cpp:47). -/
def ScalarType.kindText : ScalarType → Str
  | .bool => s "BooleanParameter"
  | .int _ => s "IntegerParameter"
  | .enum _ => s "EnumParameter"
  | .fixed _ => s "FixedPointParameter"
  | .float _ => s "FloatingPointParameter"

/-- `getKind` (InstanceConfigurableElement.cpp:46-51 delegates to the type element). -/
def EKind.text : EKind → Str
  | .group k => k
  | .bitBlock _ => s "BitParameterBlock"
  | .scalar t => t.kindText
  | .array t => t.elem.kindText
  | .string _ => s "StringParameter"
  | .bit _ => s "BitParameter"

/-- `getPathName` (Element.cpp:267-276). -/
def Elem.pathName (e : Elem) : Str := if e.name ≠ [] then e.name else e.kind.text

/-- The classes that override `getFootPrint` (Parameter.cpp `getSize`, ArrayParameter.cpp:49-52,
StringParameter.cpp:50-59, BitParameterBlock.cpp:50-59, BitParameter.cpp:60-64). -/
def EKind.ownSize : EKind → Option Nat
  | .group _ => none
  | .bitBlock n => some n
  | .scalar t => some t.size
  | .array t => some t.footprint
  | .string m => some (stringSize m)
  | .bit _ => some 0

mutual
/-- `getFootPrint` (ConfigurableElement.cpp:355-369 and the overrides of `EKind.ownSize`). -/
def Elem.footprint : Elem → Nat
  | .mk _ k _ cs => match k.ownSize with
    | some n => n
    | none => Elem.footprints cs
/-- The loop of `getFootPrint` (ConfigurableElement.cpp:360-366). -/
def Elem.footprints : List Elem → Nat
  | [] => 0
  | c :: cs => c.footprint + Elem.footprints cs
end

/-- Identity of an element: the child indexes from the root.  Stands for the element's address. -/
abbrev Pos := List Nat

/-- The element at a position. -/
def Elem.at? : Elem → Pos → Option Elem
  | e, [] => some e
  | .mk _ _ _ cs, i :: p =>
    match cs[i]? with
    | none => none
    | some c => c.at? p

/-- `_offset` of the element at a position after `setOffset(off)` on the root
(ConfigurableElement.cpp:330-347): a child's offset is its parent's plus the footprints of its
elder brothers. -/
def Elem.offset : Elem → Nat → Pos → Option Nat
  | _, off, [] => some off
  | .mk _ _ _ cs, off, i :: p =>
    match cs[i]? with
    | none => none
    | some c => c.offset (off + Elem.footprints (cs.take i)) p

/-- The main blackboard made by `loadStructure` (ParameterMgr.cpp:531-535, `setSize`
ParameterBlackboard.cpp:36-40 value-initialises). -/
def Elem.mainBoard (root : Elem) : Board := List.replicate root.footprint 0#8

/-- `isDescendantOf` (Element.cpp:451-462): strict. -/
def Pos.isDescendantOf (p q : Pos) : Bool := decide (q <+: p ∧ p ≠ q)

/-! ## Paths -/

/-- `getPath` (Element.cpp:516-524): the names from the system class down. -/
def Elem.path : Elem → Pos → Option Str
  | e, [] => some ('/' :: e.pathName)
  | .mk n k sy cs, i :: p =>
    match cs[i]? with
    | none => none
    | some c => (c.path p).map (fun t => '/' :: (Elem.mk n k sy cs).pathName ++ t)

/-- `findChild` (Element.cpp:464-488). -/
def Elem.findChild (e : Elem) (name : Str) : Option Nat :=
  e.children.findIdx? (fun c => c.pathName == name)

/-- `findDescendant` (Element.cpp:413-449), on the items left in the navigator. -/
def Elem.findDescendant : Elem → List Str → Option Pos
  | _, [] => some []
  | e, n :: ns =>
    match e.findChild n with
    | none => none
    | some i =>
      match e.children[i]? with
      | none => none
      | some c => (c.findDescendant ns).map (i :: ·)

/-- `getConfigurableElement` (ParameterMgr.cpp:697-723) with `CPathNavigator`
(PathNavigator.cpp:33-45, 53-91, 113-116), and `CElementLocator::locate` in strict mode
(ElementLocator.cpp:41-85), which do the same checks in the same order. -/
def Elem.locate (root : Elem) (path : Str) : Option Pos :=
  if path.head? ≠ some '/' then none
  else
    match tokenize ['/'] true path with
    | [] => none
    | n :: ns => if n ≠ root.name then none else root.findDescendant ns

/-- `createElementHandle` (ParameterMgr.cpp:758-782): the path "/" is the root. -/
def Elem.elementHandle (root : Elem) (path : Str) : Option Pos :=
  if path = s "/" then some [] else root.locate path

/-- `isParameter` (ConfigurableElement.cpp:640-643, BaseParameter.cpp:89-92). -/
def EKind.isParameter : EKind → Bool
  | .group _ => false
  | .bitBlock _ => false
  | _ => true

/-- `createParameterHandle` (ParameterMgr.cpp:734-755). -/
def Elem.parameterHandle (root : Elem) (path : Str) : Option Pos :=
  match root.locate path with
  | none => none
  | some p =>
    match root.at? p with
    | none => none
    | some e => if e.kind.isParameter then some p else none

/-! ## Access to the settings by text -/

/-- One byte per character (see the note on `Str`). -/
def strBytes (t : Str) : List Byte := t.map (fun c => BitVec.ofNat 8 c.toNat)
/-- One character per byte. -/
def bytesStr (bs : List Byte) : Str := bs.map (fun b => Char.ofNat b.toNat)

/-- Result of an operation on a board that may change it and then fail. -/
def Out.withBoard (b : Board) : Out Board → Out Unit × Board
  | .ok b' => (.ok (), b')
  | .err => (.err, b)
  | .abort => (.abort, b)

/-- The set half of the `accessValue` of a parameter, before the synchronisation
(BaseParameter.cpp:147-195, ArrayParameter.cpp:72-103, with the `doSetValue` of each class).
`off` is the offset of the parameter, `base` the base offset of the context (a subtraction below
zero is an access outside the board: `abort`); `items` the path items left. -/
def setParamText (rd : Reader) (ctx : Ctx) (k : EKind) (b : Board) (off base : Nat)
    (items : List Str) (text : Str) : Out Unit × Board :=
  match k with
  | .group _ => (.err, b)
  | .bitBlock _ => (.err, b)
  | .array t => arrayAccessSet rd t ctx b off base items text
  | .scalar t =>
    if items ≠ [] then (.err, b) else if off < base then (.abort, b)
    else (setScalarText rd t ctx b (off - base) text).withBoard b
  | .string m =>
    if items ≠ [] then (.err, b) else if off < base then (.abort, b)
    else (setString m b (off - base) (strBytes text)).withBoard b
  | .bit t =>
    if items ≠ [] then (.err, b) else if off < base then (.abort, b)
    else (setBitText t b (off - base) text).withBoard b

/-- The get half (BaseParameter.cpp:166-195, ArrayParameter.cpp:103-117). -/
def getParamText (ctx : Ctx) (k : EKind) (b : Board) (off base : Nat) (items : List Str) : Out Str :=
  match k with
  | .group _ => .err
  | .bitBlock _ => .err
  | .array t => arrayAccessGet t ctx b off base items
  | .scalar t =>
    if items ≠ [] then .err else if off < base then .abort else getScalarText t ctx b (off - base)
  | .string _ =>
    if items ≠ [] then .err else if off < base then .abort
    else (getString b (off - base)).bind fun bs => .ok (bytesStr bs)
  | .bit t =>
    if items ≠ [] then .err else if off < base then .abort else getBitText t ctx b (off - base)

/-- The walk of `accessValue` (ConfigurableElement.cpp:203-229): the parameter reached and the items
it is left with (BaseParameter.cpp:185-195 and ArrayParameter.cpp:72-77 stop the walk). -/
def Elem.accessWalk : Elem → List Str → Option (Pos × List Str)
  | e, [] => if e.kind.isParameter then some ([], []) else none
  | e, n :: ns =>
    if e.kind.isParameter then some ([], n :: ns)
    else
      match e.findChild n with
      | none => none
      | some i =>
        match e.children[i]? with
        | none => none
        | some c => (c.accessWalk ns).map (fun r => (i :: r.1, r.2))

/-- `CParameterMgr::accessValue` up to the parameter (ParameterMgr.cpp:2096-2108). -/
def Elem.accessTarget (root : Elem) (path : Str) : Option (Pos × List Str) :=
  if path.head? ≠ some '/' then none
  else
    match tokenize ['/'] true path with
    | [] => none
    | n :: ns => if n ≠ root.name then none else root.accessWalk ns

/-- `CParameterMgr::accessValue` for a set, without the synchronisation
(ParameterMgr.cpp:2089-2109). -/
def Elem.setText (rd : Reader) (ctx : Ctx) (root : Elem) (base : Nat) (b : Board) (path text : Str) :
    Out Unit × Board :=
  match root.accessTarget path with
  | none => (.err, b)
  | some (p, items) =>
    match root.at? p, root.offset 0 p with
    | some e, some off => setParamText rd ctx e.kind b off base items text
    | _, _ => (.abort, b)      -- unreachable: the walk only gives existing positions

/-- `CParameterMgr::accessValue` for a get (ParameterMgr.cpp:2089-2109). -/
def Elem.getText (ctx : Ctx) (root : Elem) (base : Nat) (b : Board) (path : Str) : Out Str :=
  match root.accessTarget path with
  | none => .err
  | some (p, items) =>
    match root.at? p, root.offset 0 p with
    | some e, some off => getParamText ctx e.kind b off base items
    | _, _ => .abort

/-! ## Access to the settings as bytes -/

/-- `getSettingsAsBytes` on the main blackboard (ConfigurableElement.cpp:232-239). -/
def Elem.getBytes (root : Elem) (b : Board) (p : Pos) : Out (List Byte) :=
  match root.at? p, root.offset 0 p with
  | some e, some off =>
    match b.read off e.footprint with
    | some bs => .ok bs
    | none => .abort
  | _, _ => .abort

/-- `setSettingsAsBytes` on the main blackboard, up to the synchronisation
(ConfigurableElement.cpp:241-265). -/
def Elem.setBytes (root : Elem) (b : Board) (p : Pos) (bs : List Byte) : Out Board :=
  match root.at? p, root.offset 0 p with
  | some e, some off =>
    if e.footprint ≠ bs.length then .err
    else
      match b.write off bs with
      | some b' => .ok b'
      | none => .abort
  | _, _ => .abort

/-! ## Syncers -/

/-- A set of syncers: `std::set<ISyncer *>` (SyncerSet.h), iterated in pointer order; the numbers
stand for the pointers. -/
abbrev SyncerSet := List Nat

/-- `std::set::insert` (SyncerSet.cpp:33-38). -/
def SyncerSet.insert (x : Nat) : SyncerSet → SyncerSet
  | [] => [x]
  | y :: ys => if x < y then x :: y :: ys else if x = y then y :: ys else y :: SyncerSet.insert x ys

/-- `operator+=` with another set (SyncerSet.cpp:40-48). -/
def SyncerSet.union (a b : SyncerSet) : SyncerSet := b.foldl (fun acc x => SyncerSet.insert x acc) a

/-- `getSyncer` (ConfigurableElement.cpp:372-382, InstanceConfigurableElement.cpp:152-160): the own
syncer or the closest ancestor's.  `inherited` is what the ancestors give. -/
def Elem.getSyncer : Elem → Option Nat → Pos → Option Nat
  | e, inherited, [] => e.syncer.or inherited
  | .mk _ _ sy cs, inherited, i :: p =>
    match cs[i]? with
    | none => none
    | some c => c.getSyncer (sy.or inherited) p

mutual
/-- `fillSyncerSetFromDescendant` (ConfigurableElement.cpp:403-415,
InstanceConfigurableElement.cpp:163-172). -/
def Elem.fillFromDescendants (acc : SyncerSet) : Elem → SyncerSet
  | .mk _ _ sy cs => match sy with
    | some x => SyncerSet.insert x acc
    | none => Elem.fillFromAll acc cs
/-- The loop of `fillSyncerSetFromDescendant` (ConfigurableElement.cpp:408-414). -/
def Elem.fillFromAll (acc : SyncerSet) : List Elem → SyncerSet
  | [] => acc
  | c :: cs => Elem.fillFromAll (Elem.fillFromDescendants acc c) cs
end

/-- `fillSyncerSet` on an empty set (ConfigurableElement.cpp:385-400). -/
def Elem.syncerSet (root : Elem) (p : Pos) : SyncerSet :=
  match root.getSyncer none p with
  | some x => [x]
  | none =>
    match root.at? p with
    | some e => e.fillFromDescendants []
    | none => []

end PF
