import Verif.Model.Tree

/-!
# Model of the mapping of a structure onto subsystem objects

`parameter/MappingData.cpp`, `MappingContext.cpp`, `FormattedSubsystemObject.cpp`, and the mapping
functions of `Subsystem.cpp`, `InstanceConfigurableElement.cpp`, `TypeElement.cpp`,
`ComponentType.cpp`, `ComponentInstance.cpp`, `ElementHandle.cpp`.
-/

namespace PF

/-! ## Mapping data -/

/-- Lexicographic order of `std::string`, used by `std::map`.  (One `Char` is one byte.) -/
def strLt : Str → Str → Bool
  | _, [] => false
  | [], _ :: _ => true
  | a :: as, b :: bs => if a.toNat < b.toNat then true else if b.toNat < a.toNat then false else strLt as bs

/-- `_keyToValueMap` (MappingData.h): a `std::map`, that is the bindings in increasing order of the
keys. -/
abbrev MData := List (Str × Str)

/-- `std::map::find` and `CMappingData::getValue` (MappingData.cpp:75-86). -/
def MData.getValue (m : MData) (key : Str) : Option Str :=
  (m.find? (fun b => b.1 == key)).map (·.2)

/-- `_keyToValueMap[strkey] = strValue` for a key that is not in the map (MappingData.cpp:99). -/
def MData.insert (m : MData) (key value : Str) : MData :=
  match m with
  | [] => [(key, value)]
  | b :: bs => if strLt key b.1 then (key, value) :: b :: bs else b :: MData.insert bs key value

/-- `CMappingData::addValue` (MappingData.cpp:93-102); `none` is the refusal. -/
def MData.addValue (m : MData) (key value : Str) : Option MData :=
  match m.getValue key with
  | some _ => none
  | none => some (m.insert key value)

/-- Key and value of a mapping element: `find_first_of(':')` and the two `substr`
(MappingData.cpp:43-62). -/
def cutColon : Str → Str × Str
  | [] => ([], [])
  | c :: t => if c = ':' then ([], t) else let r := cutColon t; (c :: r.1, r.2)

/-- The loop of `CMappingData::init` (MappingData.cpp:35-72). -/
def MData.addAll (m : MData) : List Str → Option MData
  | [] => some m
  | t :: ts =>
    match m.addValue (cutColon t).1 (cutColon t).2 with
    | none => none
    | some m' => MData.addAll m' ts

/-- `CMappingData::init` (MappingData.cpp:35-73) on new mapping data; `none`: refused. -/
def MData.init (raw : Str) : Option MData := MData.addAll [] (tokenize [','] true raw)

/-- `utility::asString` of a list of texts (Utility.h:53-83). -/
def joinTexts (sep : Str) : List Str → Str
  | [] => []
  | [t] => t
  | t :: u :: ts => t ++ sep ++ joinTexts sep (u :: ts)

/-- `CMappingData::asString` (MappingData.cpp:88-91, Utility.cpp:42-53). -/
def MData.asString (m : MData) : Str :=
  joinTexts (s ", ") (m.map (fun b => b.1 ++ s ":" ++ b.2))

/-! ## Mapping context -/

/-- `SItem` (MappingContext.h) with both pointers set. -/
structure CtxItem where
  key : Str
  item : Str
deriving Repr, DecidableEq

/-- `CMappingContext::mItems`; `none` is the item with null pointers. -/
abbrev MCtx := List (Option CtxItem)

/-- `CMappingContext(nbItemTypes)` (MappingContext.h). -/
def MCtx.fresh (n : Nat) : MCtx := List.replicate n none

/-- `iSet` (MappingContext.cpp:77-80); an index out of the vector is undefined behaviour. -/
def MCtx.iSet (c : MCtx) (i : Nat) : Out Bool :=
  match c[i]? with
  | none => .abort
  | some o => .ok o.isSome

/-- `setItem` (MappingContext.cpp:38-52). -/
def MCtx.setItem (c : MCtx) (i : Nat) (key item : Str) : Out MCtx :=
  (c.iSet i).bind fun set => if set then .err else .ok (c.set i (some ⟨key, item⟩))

/-- `getItem(itemType)` (MappingContext.cpp:54-57); dereferences the pointer without a check. -/
def MCtx.getItem (c : MCtx) (i : Nat) : Out Str :=
  match c[i]? with
  | some (some x) => .ok x.item
  | _ => .abort

/-- `getItem(strKey)` (MappingContext.cpp:69-75), which returns the *key* of the item it finds. -/
def MCtx.getItemByKey (c : MCtx) (key : Str) : Option Str :=
  (c.find? (fun o => match o with | some x => x.key == key | none => false)).bind
    (fun o => o.map (·.key))

/-! ## Amendment of a mapping value -/

/-- `formatMappingValue` after its assertion (FormattedSubsystemObject.cpp:79-121): `find('%')`
copies the characters before the first `%`.  The assertion holds in the recursive call when it
holds in the first call. -/
def formatMapping (first nb : Nat) (ctx : MCtx) : Str → Out Str
  | [] => .ok []
  | [c] => .ok [c]
  | c :: d :: rest =>
    if c = '%' then
      if 0 < d.toNat - '0'.toNat ∧ d.toNat - '0'.toNat ≤ nb then
        (ctx.iSet (first + (d.toNat - '0'.toNat) - 1)).bind fun set =>
          if set then
            (formatMapping first nb ctx rest).bind fun tail =>
              (ctx.getItem (first + (d.toNat - '0'.toNat) - 1)).bind fun v => .ok (v ++ tail)
          else .ok (c :: d :: rest)
      else .ok (c :: d :: rest)
    else (formatMapping first nb ctx (d :: rest)).bind fun tail => .ok (c :: tail)

/-- `formatMappingValue` (FormattedSubsystemObject.cpp:79-121) with `isAmendKeyValid` (73-77). -/
def formatMappingValue (value : Str) (first nb : Nat) (ctx : MCtx) : Out Str :=
  if 0 < nb ∧ nb ≤ 9 then formatMapping first nb ctx value else .abort

/-- The constructor of `CFormattedSubsystemObject` with amendments
(FormattedSubsystemObject.cpp:53-66). -/
def formattedObjectValue (value : Str) (first nb : Nat) (ctx : MCtx) : Out Str :=
  let v := if value.head? = some '\'' ∧ 2 ≤ value.length then (value.drop 1).take (value.length - 2)
    else value
  formatMappingValue v first nb ctx

/-! ## Mapping a subsystem -/

/-- `CSubsystemObjectCreator` (SubsystemObjectCreator.h). -/
structure Creator where
  key : Str
  ancestorMask : BitVec 32
  maxSize : Nat
deriving Repr, DecidableEq

/-- What the mapping of a subsystem depends on: `_contextMappingKeyArray` and
`_subsystemObjectCreatorArray` (Subsystem.h) and the mapping data of every element.  Positions are
relative to the subsystem.  The mapping data of an element is the list of the `_pMappingData` that
exist, in the order they are looked up: the instance's, its component type's, the extended component
type's and so on (TypeElement.cpp:64-76, ComponentType.cpp:52-64, ComponentInstance.cpp:60-73);
for the subsystem, its own (Subsystem.cpp:325-333). -/
structure MapDef where
  contextKeys : List Str
  creators : List Creator
  maps : Pos → List MData

/-- `getMappingData` (InstanceConfigurableElement.cpp:66-71 and the functions cited at `MapDef`). -/
def MapDef.get (d : MapDef) (p : Pos) (key : Str) : Option Str :=
  (d.maps p).findSome? (fun m => m.getValue key)

/-- `hasMappingData` (TypeElement.cpp:73-76, ComponentType.cpp:59-64,
ComponentInstance.cpp:68-72). -/
def MapDef.has (d : MapDef) (p : Pos) : Bool := !(d.maps p).isEmpty

/-- A created subsystem object: its element, the creator, the mapping value and the context given to
the creator. -/
structure SubObj where
  pos : Pos
  creator : Nat
  value : Str
  ctx : MCtx
deriving Repr, DecidableEq

/-- `_contextStack` (top first) and `_subsystemObjectList` (Subsystem.h). -/
structure MapSt where
  stack : List MCtx
  objs : List SubObj
deriving Repr, DecidableEq

/-- The loop of `handleMappingContext` (Subsystem.cpp:348-363), from item `i` on. -/
def handleContextFrom (d : MapDef) (p : Pos) : (i : Nat) → List Str → MCtx → Out MCtx
  | _, [], c => .ok c
  | i, key :: keys, c =>
    match d.get p key with
    | none => handleContextFrom d p (i + 1) keys c
    | some v => (c.setItem i key v).bind fun c' => handleContextFrom d p (i + 1) keys c'

/-- `handleMappingContext` (Subsystem.cpp:344-365). -/
def handleMappingContext (d : MapDef) (p : Pos) (c : MCtx) : Out MCtx :=
  handleContextFrom d p 0 d.contextKeys c

/-- The ancestor check of `handleSubsystemObjectCreation` (Subsystem.cpp:384-402), for `n` items from
item `k` on.  `1 << k` is undefined from 32 on. -/
def checkAncestors (mask : BitVec 32) (c : MCtx) : (n k : Nat) → Out Unit
  | 0, _ => .ok ()
  | n + 1, k =>
    if 32 ≤ k then .abort
    else if mask.getLsbD k then
      (c.iSet k).bind fun set => if set then checkAncestors mask c n (k + 1) else .err
    else checkAncestors mask c n (k + 1)

/-- The loop of `handleSubsystemObjectCreation` (Subsystem.cpp:375-423), from creator `i` on: the
creator to call and the mapping value. -/
def findCreator (d : MapDef) (p : Pos) (footprint : Nat) (c : MCtx) :
    (i : Nat) → List Creator → Out (Option (Nat × Str))
  | _, [] => .ok none
  | i, cr :: crs =>
    match d.get p cr.key with
    | none => findCreator d p footprint c (i + 1) crs
    | some v =>
      (checkAncestors cr.ancestorMask c d.contextKeys.length 0).bind fun _ =>
        if cr.maxSize < footprint then .err else .ok (some (i, v))

/-- The cases of the `switch` of `mapBegin` (Subsystem.cpp:452-461): whether an object must be
created; `none` is `assert(0)`. -/
def EKind.mustCreate : EKind → Option Bool
  | .group _ => some false
  | .bitBlock _ => some true
  | .scalar _ => some true
  | .array _ => some true
  | .string _ => some true
  | .bit _ => none

/-- `CSubsystem::mapBegin` (Subsystem.cpp:435-490).  The result is the number of the new object, if
any; `bKeepDiving` is set when there is none.  The object becomes the syncer of its element
(SubsystemObject.cpp:46-53; `setSyncer` asserts that there was none, InstanceConfigurableElement.cpp
139-144). -/
def mapBegin (d : MapDef) (p : Pos) (e : Elem) (st : MapSt) : Out (MapSt × Option Nat) :=
  match st.stack with
  | [] => .abort
  | top :: _ =>
    (handleMappingContext d p top).bind fun c =>
      match e.kind.mustCreate with
      | none => .abort
      | some must =>
        (findCreator d p e.footprint c 0 d.creators).bind fun r =>
          match r with
          | none => if must then .err else .ok (⟨c :: st.stack, st.objs⟩, none)
          | some iv =>
            if e.syncer.isSome then .abort
            else .ok (⟨c :: st.stack, st.objs ++ [⟨p, iv.1, iv.2, c⟩]⟩, some st.objs.length)

/-- `CSubsystem::mapEnd` (Subsystem.cpp:492-496). -/
def mapEnd (st : MapSt) : MapSt := ⟨st.stack.tail, st.objs⟩

mutual
/-- `CInstanceConfigurableElement::map` (InstanceConfigurableElement.cpp:79-115): the element with
the syncers set, and the new state.  After a failure the partial state is not kept (the start
fails). -/
def Elem.mapElem (d : MapDef) : Elem → Pos → MapSt → Out (Elem × MapSt)
  | .mk n k sy cs, p, st =>
    if d.has p then
      (mapBegin d p (.mk n k sy cs) st).bind fun r =>
        match r.2 with
        | some id => .ok (.mk n k (some id) cs, mapEnd r.1)
        | none => (Elem.mapAll d cs p 0 r.1).bind fun q => .ok (.mk n k sy q.1, mapEnd q.2)
    else (Elem.mapAll d cs p 0 st).bind fun q => .ok (.mk n k sy q.1, q.2)
/-- The loops over the children (InstanceConfigurableElement.cpp:94-106, Subsystem.cpp:168-179), from
child `i` on. -/
def Elem.mapAll (d : MapDef) : List Elem → Pos → Nat → MapSt → Out (List Elem × MapSt)
  | [], _, _, st => .ok ([], st)
  | c :: cs, p, i, st =>
    (Elem.mapElem d c (p ++ [i]) st).bind fun r =>
      (Elem.mapAll d cs p (i + 1) r.2).bind fun q => .ok (r.1 :: q.1, q.2)
end

/-- `CSubsystem::mapSubsystemElements` (Subsystem.cpp:157-181) on a newly built subsystem: the
subsystem with the syncers set, and the objects.  The result of `handleMappingContext` is ignored by
the code; it cannot be a failure on a fresh context (`handleMappingContext_fresh`), so the model does
not say what happens then. -/
def Elem.mapSubsystem (d : MapDef) : Elem → Out (Elem × List SubObj)
  | .mk n k sy cs =>
    match handleMappingContext d [] (MCtx.fresh d.contextKeys.length) with
    | .ok c =>
      (Elem.mapAll d cs [] 0 ⟨[c], []⟩).bind fun q => .ok (.mk n k sy q.1, q.2.objs)
    | _ => .abort

/-! ## Reading the mapping back -/

/-- `ElementHandle::getMappingData` (ElementHandle.cpp:129-145) with
`getConfigurableElementContext` (ConfigurableElement.cpp:278-291): the element first, then its
ancestors up to the subsystem (the system class has no mapping, SystemClass.cpp:86-92). -/
def MapDef.handleGet (d : MapDef) (p : Pos) (key : Str) : Option Str :=
  (List.range (p.length + 1)).reverse.findSome? (fun n => d.get (p.take n) key)

/-- `getFormattedMapping` of an element (TypeElement.cpp:146-177, ComponentType.cpp:66-69,
ComponentInstance.cpp:75-78, Subsystem.cpp:335-341): the predecessors' text comes first. -/
def formattedMapping (ms : List MData) : Str :=
  joinTexts (s ", ") ((ms.reverse.map MData.asString).filter (· ≠ []))

end PF
