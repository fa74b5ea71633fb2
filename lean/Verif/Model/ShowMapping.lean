import Verif.Model.Mapping

/-!
# Model of the command `showMapping`

`showMappingCommandProcess` (ParameterMgr.cpp:1812-1821), `CParameterMgr::getParameterMapping` (1982-2006) and
`CSubsystem::getMapping` (Subsystem.cpp:269-291).
-/

namespace PF

/-- A subsystem once mapped: its mapping and its objects, with the text that each object gives for its value
(`getFormattedMappingValue`, SubsystemObject.cpp:60-64, FormattedSubsystemObject.cpp:68-71), which depends on the plugin. -/
structure MappedSub where
  defs : MapDef
  objs : List SubObj
  shown : SubObj → Str

/-- `formatMappingDataList` (Subsystem.cpp:183-200) on the list that `getConfigurableElementContext` gives
(ConfigurableElement.cpp:278-291): from the subsystem down to the element.  The system class, first of the list, has an empty
text (SystemClass.cpp:90-93). -/
def MapDef.formatList (d : MapDef) (p : Pos) : Str :=
  joinTexts (s ", ") (((List.range (p.length + 1)).map fun n => formattedMapping (d.maps (p.take n))).filter (· ≠ []))

/-- `findSubsystemLevelMappingKeyValue` (Subsystem.cpp:222-244): the key of the first creator that the mapping of the element
binds; `abort` is `assert(0)`. -/
def MapDef.creatorKey (d : MapDef) (p : Pos) : Out Str :=
  match d.creators.find? fun cr => (d.get p cr.key).isSome with
  | none => .abort
  | some cr => .ok cr.key

/-- `getFormattedSubsystemMappingData` (Subsystem.cpp:247-267) with `findSubsystemObjectFromConfigurableElement` (202-219). -/
def MappedSub.objectText (m : MappedSub) (p : Pos) : Out Str :=
  match m.objs.find? fun o => o.pos == p with
  | none => .ok []
  | some o => (m.defs.creatorKey p).bind fun key => .ok (key ++ s ":" ++ m.shown o)

/-- `CSubsystem::getMapping` (Subsystem.cpp:269-291).  The list of elements is never empty. -/
def MappedSub.mappingText (m : MappedSub) (p : Pos) : Out Str :=
  (m.objectText p).bind fun t => .ok (m.defs.formatList p ++ (if t ≠ [] then s ", " ++ t else []))

/-- `getParameterMapping` (ParameterMgr.cpp:1982-2006) with `getBelongingSubsystem` (ConfigurableElement.cpp:626-637,
Subsystem.cpp:300-303): the system class is in no subsystem.  Positions start with the number of the subsystem. -/
def Elem.showMapping (root : Elem) (subs : Nat → MappedSub) (path : Str) : Out Str :=
  match root.locate path with
  | none => .err
  | some [] => .err
  | some (i :: p) => (subs i).mappingText p

end PF
