import Verif.Model.Mapping

/-!
# Model of the loading of structure files

The `fromXml` functions of the type elements (`parameter/*Type.cpp`, `TypeElement.cpp`,
`ComponentLibrary.cpp`, `ComponentInstance.cpp`, `IntegerParameterBuilder.h`, `EnumValuePair.cpp`),
their instantiation, and `CSubsystem::structureFromXml`.

The starting point is the XML tree given by libxml2.  Validation against the schemas is optional and
off by default (ParameterMgr.h `_bValidateSchemasOnStart`); it is not part of the model, so the model
says what the code does with any tree.  `SubsystemInclude` elements are taken to be replaced by the
root of the document they name (XmlFileIncluderElement.cpp:49-103).

Simplifications:
* The numbers in the attributes of a `FloatingPointParameter` are read by a reader left open, as in
  `Verif.Model.Float32`.
* `LinearAdaptation` and `LogarithmicAdaptation` are accepted and left out, whatever their
  attributes.
* An element in a place where the code would treat it as an element of another class
  (`static_cast`), or that it asserts is never instantiated, gives `abort` when it is read, even when
  an error further in the document would stop the code before it uses the element.
-/

namespace PF

/-- An element of an XML document: tag, attributes and child elements. -/
inductive SXml where
  | mk (tag : Str) (attrs : List (Str × Str)) (children : List SXml)
deriving Repr

/-- `getType` (XmlElement.cpp:52-55). -/
def SXml.tag : SXml → Str | .mk t _ _ => t
/-- The attributes. -/
def SXml.attrs : SXml → List (Str × Str) | .mk _ a _ => a
/-- The child elements, in the order of `CChildIterator`. -/
def SXml.children : SXml → List SXml | .mk _ _ cs => cs

/-- `getAttribute<std::string>` (XmlElement.cpp:84-99). -/
def SXml.attr (x : SXml) (name : Str) : Option Str :=
  (x.attrs.find? (fun a => a.1 == name)).map (·.2)

/-- `getNameAttribute` (XmlElement.cpp:115-120). -/
def SXml.nameAttr (x : SXml) : Str := (x.attr (s "Name")).getD []

/-- `getAttribute<T>` for an integer type (XmlElement.cpp:98-113): `dflt` when there is no such
attribute; a text that does not convert throws, which ends the loading with an error
(Element.cpp:187-190). -/
def SXml.num (x : SXml) (name : Str) (signed : Bool) (bits : Nat) (dflt : Int) : Out Int :=
  match x.attr name with
  | none => .ok dflt
  | some t =>
    match convertTo signed bits t with
    | some n => .ok n
    | none => .err

/-- `getAttribute` into a `size_t`. -/
def SXml.size (x : SXml) (name : Str) (dflt : Nat) : Out Nat :=
  (x.num name false 64 dflt).bind fun n => .ok n.toNat

/-- `convertTo<bool>` (convert.hpp:309-323). -/
def convertBool (t : Str) : Option Bool :=
  if t = s "0" ∨ t = s "FALSE" ∨ t = s "false" then some false
  else if t = s "1" ∨ t = s "TRUE" ∨ t = s "true" then some true
  else none

/-! ## Type elements -/

/-- The class of a type element, with what its `fromXml` reads.  `comp` refers to a component type by
its number in the library. -/
inductive TData where
  | comp (type : Nat)
  | block
  | bitBlock (size : Nat)
  | bit (t : BitType)
  | string (maxLength : Nat)
  | scalar (t : ScalarType)
  | pair (numerical : BitVec 32)
  | adaptation
deriving Repr

/-- A type element (TypeElement.h): name, class, `_arrayLength`, `_pMappingData`, children. -/
inductive TElem where
  | mk (name : Str) (data : TData) (len : Nat) (map : Option MData) (children : List TElem)
deriving Repr

/-- A component type (ComponentType.h): name, `_pMappingData`, `_pExtendsComponentType` as a number
in the library, children. -/
structure TypeDef where
  name : Str
  map : Option MData
  ext : Option Nat
  children : List TElem
deriving Repr

/-- The attributes read by `CTypeElement::fromXml` (TypeElement.cpp:107-125). -/
def typeAttrs (x : SXml) : Out (Nat × Option MData) :=
  (x.size (s "ArrayLength") 0).bind fun len =>
    match x.attr (s "Mapping") with
    | none => .ok (len, none)
    | some raw =>
      if raw = [] then .ok (len, none)
      else
        match MData.init raw with
        | none => .err
        | some m => .ok (len, some m)

/-- `IntegerParameterBuilder::createElement` (IntegerParameterBuilder.h:42-72) and
`CIntegerParameterType::fromXml` (IntegerParameterType.h:92-107). -/
def loadInt (x : SXml) : Out IntType :=
  (x.size (s "Size") 32).bind fun bits =>
    (match x.attr (s "Signed") with
      | none => Out.ok false
      | some t => match convertBool t with | some b => .ok b | none => .err).bind fun signed =>
      if bits = 8 ∨ bits = 16 ∨ bits = 32 then
        (x.num (s "Min") signed bits (if signed then -(2 ^ (bits - 1) : Nat) else 0)).bind fun min =>
          (x.num (s "Max") signed bits
              (if signed then (2 ^ (bits - 1) : Nat) - 1 else (2 ^ bits : Nat) - 1)).bind fun max =>
            if min > max then .err else .ok ⟨signed, bits / 8, min, max⟩
      else .err

/-- `CFixedPointParameterType::fromXml` (FixedPointParameterType.cpp:90-117).  `getUtilSizeInBits`
(271-274) is a sum on 32 bits, which can wrap; the functions of `FixedType` are those of the code
only when it does not. -/
def loadFixed (x : SXml) : Out FixedType :=
  (x.size (s "Size") 0).bind fun bits =>
    (x.num (s "Integral") false 32 0).bind fun i =>
      (x.num (s "Fractional") false 32 0).bind fun f =>
        if bits < (i.toNat + f.toNat + 1) % 2 ^ 32 then .err
        else .ok ⟨bits / 8, i.toNat, f.toNat⟩

/-- `getAttribute` into a `float` (XmlElement.cpp:98-113).  `convertTo<float>` gives finite numbers only. -/
def SXml.flt (x : SXml) (rd : Reader) (name : Str) (dflt : BitVec 32) : Out (BitVec 32) :=
  match x.attr name with
  | none => .ok dflt
  | some t =>
    match rd.flt t with
    | none => .err
    | some v => if f32Finite v then .ok v else .err

/-- `CFloatingPointParameterType::fromXml` (FloatingPointParameterType.cpp:84-114); the bounds are those of
`float` by default (FloatingPointParameterType.h:89-90). -/
def loadFloat (rd : Reader) (x : SXml) : Out FloatType :=
  (x.size (s "Size") 32).bind fun bits =>
    if bits ≠ 32 then .err
    else
      (x.flt rd (s "Min") (f32OfMag true f32MaxUnits)).bind fun min =>
        (x.flt rd (s "Max") (f32OfMag false f32MaxUnits)).bind fun max =>
          if f32Units min > f32Units max then .err else .ok ⟨min, max⟩

/-- The optional `Max` of a bit parameter (BitParameterType.cpp:103-104). -/
def loadBit (blockSize : Nat) (x : SXml) : Out BitType :=
  (x.size (s "Pos") 0).bind fun pos =>
    (x.size (s "Size") 0).bind fun bits =>
      match x.attr (s "Max") with
      | none => BitType.load blockSize pos bits none
      | some t =>
        match convertTo false 64 t with
        | some m => BitType.load blockSize pos bits (some (BitVec.ofInt 64 m))
        | none =>
          -- the errors and undefined shifts before the attribute is read come first
          (BitType.load blockSize pos bits none).bind fun _ => .err

/-- The value pairs of an enum type (EnumParameterType.cpp casts its children to `CEnumValuePair`). -/
def enumPairs : List TElem → Out (List (Str × BitVec 32))
  | [] => .ok []
  | .mk n (.pair v) _ _ _ :: ts => (enumPairs ts).bind fun ps => .ok ((n, v) :: ps)
  | _ :: _ => .abort

/-- What an element needs to know of its parent: whether it is component type number `i`
(ComponentInstance.cpp:104), or a bit parameter block of some size (BitParameterType.cpp:84-87). -/
inductive Par where
  | type (i : Nat)
  | bits (size : Nat)
  | other
deriving Repr, DecidableEq

/-- `childrenAreDynamic` is false: any child element is refused (Element.cpp:157-167). -/
def noChildren : List SXml → Out Unit
  | [] => .ok ()
  | _ :: _ => .err

/-- The tags that have a builder (ParameterMgr.cpp:2761-2795) and are not handled by `loadElem`. -/
def otherTags : List Str :=
  [s "Subsystem", s "ComponentType", s "SubsystemInclude"]

/-- `getComponentType` (ComponentLibrary.cpp:45-48): the first component type of that name among
those created so far. -/
def findType (types : List Str) (name : Str) : Option Nat := types.findIdx? (fun n => n == name)

mutual
/-- `createChild` (Element.cpp:300-321) with the builders of the parameter creation library
(ParameterMgr.cpp:2761-2795), then the `fromXml` of the class: ComponentInstance.cpp:80-112,
ParameterBlockType.cpp, BitParameterBlockType.cpp:58-67, BitParameterType.cpp:74-119,
StringParameterType.cpp:59-67, BooleanParameterType.cpp, IntegerParameterType.h:92-107,
EnumParameterType.cpp:76-91, EnumValuePair.cpp:58-71, FixedPointParameterType.cpp:90-117,
FloatingPointParameterType.cpp:84-114, and
TypeElement.cpp:107-125, Element.cpp:143-190.  `types`: the path names of the component types created
so far. -/
def loadElem (rd : Reader) (types : List Str) (par : Par) : SXml → Out TElem
  | .mk tag attrs cs =>
    if tag = s "Component" then
      match findType types (((SXml.mk tag attrs cs).attr (s "Type")).getD []) with
      | none => .err
      | some i =>
        if par = .type i then .err
        else
          (typeAttrs (.mk tag attrs cs)).bind fun a =>
            (loadElems rd types .other cs).bind fun ts =>
              .ok (.mk (SXml.mk tag attrs cs).nameAttr (.comp i) a.1 a.2 ts)
    else if tag = s "ParameterBlock" then
      (typeAttrs (.mk tag attrs cs)).bind fun a =>
        (loadElems rd types .other cs).bind fun ts =>
          .ok (.mk (SXml.mk tag attrs cs).nameAttr .block a.1 a.2 ts)
    else if tag = s "BitParameterBlock" then
      ((SXml.mk tag attrs cs).size (s "Size") 0).bind fun bits =>
        (typeAttrs (.mk tag attrs cs)).bind fun a =>
          (loadElems rd types (.bits (bits / 8)) cs).bind fun ts =>
            .ok (.mk (SXml.mk tag attrs cs).nameAttr (.bitBlock (bits / 8)) a.1 a.2 ts)
    else if tag = s "BitParameter" then
      match par with
      | .bits size =>
        (loadBit size (.mk tag attrs cs)).bind fun t =>
          (typeAttrs (.mk tag attrs cs)).bind fun a =>
            (noChildren cs).bind fun _ =>
              .ok (.mk (SXml.mk tag attrs cs).nameAttr (.bit t) a.1 a.2 [])
      | _ => .abort
    else if tag = s "StringParameter" then
      ((SXml.mk tag attrs cs).size (s "MaxLength") 0).bind fun m =>
        (typeAttrs (.mk tag attrs cs)).bind fun a =>
          (noChildren cs).bind fun _ =>
            .ok (.mk (SXml.mk tag attrs cs).nameAttr (.string m) a.1 a.2 [])
    else if tag = s "BooleanParameter" then
      (typeAttrs (.mk tag attrs cs)).bind fun a =>
        (noChildren cs).bind fun _ =>
          .ok (.mk (SXml.mk tag attrs cs).nameAttr (.scalar .bool) a.1 a.2 [])
    else if tag = s "IntegerParameter" then
      (loadInt (.mk tag attrs cs)).bind fun t =>
        (typeAttrs (.mk tag attrs cs)).bind fun a =>
          (loadElems rd types .other cs).bind fun _ =>
            .ok (.mk (SXml.mk tag attrs cs).nameAttr (.scalar (.int t)) a.1 a.2 [])
    else if tag = s "EnumParameter" then
      match (SXml.mk tag attrs cs).attr (s "Size") with
      | none => .err
      | some _ =>
        ((SXml.mk tag attrs cs).size (s "Size") 0).bind fun bits =>
          (typeAttrs (.mk tag attrs cs)).bind fun a =>
            (loadElems rd types .other cs).bind fun ts =>
              (enumPairs ts).bind fun ps =>
                .ok (.mk (SXml.mk tag attrs cs).nameAttr (.scalar (.enum ⟨bits / 8, ps⟩)) a.1 a.2 [])
    else if tag = s "FixedPointParameter" then
      (loadFixed (.mk tag attrs cs)).bind fun t =>
        (typeAttrs (.mk tag attrs cs)).bind fun a =>
          (noChildren cs).bind fun _ =>
            .ok (.mk (SXml.mk tag attrs cs).nameAttr (.scalar (.fixed t)) a.1 a.2 [])
    else if tag = s "FloatingPointParameter" then
      (loadFloat rd (.mk tag attrs cs)).bind fun t =>
        (typeAttrs (.mk tag attrs cs)).bind fun a =>
          (noChildren cs).bind fun _ =>
            .ok (.mk (SXml.mk tag attrs cs).nameAttr (.scalar (.float t)) a.1 a.2 [])
    else if tag = s "ValuePair" then
      ((SXml.mk tag attrs cs).num (s "Numerical") true 32 0).bind fun n =>
        (noChildren cs).bind fun _ =>
          .ok (.mk (((SXml.mk tag attrs cs).attr (s "Literal")).getD []) (.pair (BitVec.ofInt 32 n)) 0
            none [])
    else if tag = s "LinearAdaptation" ∨ tag = s "LogarithmicAdaptation" then
      (noChildren cs).bind fun _ => .ok (.mk [] .adaptation 0 none [])
    else if tag ∈ otherTags then .abort
    else .err
/-- The loop of `CElement::fromXml` with dynamic children (Element.cpp:149-184). -/
def loadElems (rd : Reader) (types : List Str) (par : Par) : List SXml → Out (List TElem)
  | [] => .ok []
  | x :: xs =>
    (loadElem rd types par x).bind fun t => (loadElems rd types par xs).bind fun ts => .ok (t :: ts)
end

/-- `getPathName` of a component type (Element.cpp:267-276, ComponentType.cpp `getKind`). -/
def typePathName (name : Str) : Str := if name ≠ [] then name else s "ComponentType"

/-- `CComponentType::fromXml` (ComponentType.cpp:71-111); `types`: the path names of the component
types created so far, the last of which is this one (it is in the library before `fromXml` is
called, ComponentLibrary.cpp:69-71). -/
def loadType (rd : Reader) (types : List Str) (x : SXml) : Out TypeDef :=
  (typeAttrs x).bind fun a =>
    (loadElems rd types (.type (types.length - 1)) x.children).bind fun ts =>
      match x.attr (s "Extends") with
      | none => .ok ⟨x.nameAttr, a.2, none, ts⟩
      | some e =>
        match findType types e with
        | none => .err
        | some j => if j = types.length - 1 then .err else .ok ⟨x.nameAttr, a.2, some j, ts⟩

/-- The path names of the types of a library. -/
def libNames (lib : List TypeDef) : List Str := lib.map (fun t => typePathName t.name)

mutual
/-- One turn of the loop of `CComponentLibrary::fromXml` (ComponentLibrary.cpp:58-76); `lib`: the
component types of the library so far. -/
def loadLibItem (rd : Reader) (lib : List TypeDef) : SXml → Out (List TypeDef)
  | .mk tag attrs cs =>
    if tag = s "ComponentLibrary" ∨ tag = s "ComponentTypeSet" then loadLibItems rd lib cs
    else if tag = s "ComponentType" then
      (loadType rd (libNames lib ++ [typePathName (SXml.mk tag attrs cs).nameAttr]) (.mk tag attrs cs)).bind
        fun t => .ok (lib ++ [t])
    else
      -- another class of element in the library: an error if it has no builder
      match loadElem rd (libNames lib) .other (.mk tag attrs cs) with
      | .err => .err
      | _ => .abort
/-- `CComponentLibrary::fromXml` (ComponentLibrary.cpp:50-79), on the child elements. -/
def loadLibItems (rd : Reader) (lib : List TypeDef) : List SXml → Out (List TypeDef)
  | [] => .ok lib
  | x :: xs => (loadLibItem rd lib x).bind fun lib' => loadLibItems rd lib' xs
end

/-! ## Instantiation -/

/-- A configurable element with its mapping data, in the order in which they are looked up (see
`MapDef`). -/
inductive IElem where
  | mk (name : Str) (kind : EKind) (maps : List MData) (children : List IElem)
deriving Repr

/-- Result of a computation that may not be finished after the given number of nested calls:
`none`. -/
abbrev Run (α : Type) := Option (Out α)

/-- Sequencing. -/
def Run.bind {α β : Type} (x : Run α) (f : α → Run β) : Run β :=
  match x with
  | none => none
  | some (.ok a) => f a
  | some .err => some .err
  | some .abort => some .abort

/-- The mapping data of a component type and of the types it extends (ComponentType.cpp:52-64).
`fuel`: an extended type comes before in the library, so that the length of the library is enough. -/
def typeMaps (lib : List TypeDef) : (fuel : Nat) → Nat → List MData
  | 0, _ => []
  | fuel + 1, i =>
    match lib[i]? with
    | none => []
    | some t => t.map.toList ++ (match t.ext with | none => [] | some j => typeMaps lib fuel j)

/-- The elements "0", "1", ... of an array of blocks or components (ComponentInstance.cpp:127-138,
ParameterBlockType.cpp:60-69), all with the same content. -/
def arrayElems (kind : EKind) (maps : List MData) (len : Nat) (content : List IElem) : List IElem :=
  (List.range len).map (fun i => .mk (natText i) kind maps content)

mutual
/-- `CTypeElement::instantiate` (TypeElement.cpp:127-135): `doInstantiate` and `populate` of the class
(ComponentInstance.cpp:114-143, ParameterBlockType.cpp:50-75, BitParameterBlockType.cpp:70-73,
BitParameterType.cpp, StringParameterType.cpp:69-72, ParameterType.cpp:129-138).  `typeContent`: what
`CComponentType::populate` adds for a component type.  The code builds the content of each element of
an array again. -/
def instElem (lib : List TypeDef) (typeContent : Nat → Run (List IElem)) : TElem → Run IElem
  | .mk name data len map cs =>
    match data with
    | .scalar t =>
      some (.ok (.mk name (if len = 0 then .scalar t else .array ⟨t, len⟩) map.toList []))
    | .string m => some (.ok (.mk name (.string m) map.toList []))
    | .bit t => some (.ok (.mk name (.bit t) map.toList []))
    | .bitBlock size =>
      Run.bind (instElems lib typeContent cs) fun is =>
        some (.ok (.mk name (.bitBlock size) map.toList is))
    | .block =>
      Run.bind (instElems lib typeContent cs) fun is =>
        some (.ok (.mk name (.group (s "ParameterBlock")) map.toList
          (if len = 0 then is
           else arrayElems (.group (s "ParameterBlock")) map.toList len is)))
    | .comp i =>
      Run.bind (instElems lib typeContent cs) fun own =>
        Run.bind (typeContent i) fun rest =>
          some (.ok (.mk name (.group (s "ComponentInstance")) (map.toList ++ typeMaps lib lib.length i)
            (if len = 0 then own ++ rest
             else arrayElems (.group (s "ComponentInstance"))
               (map.toList ++ typeMaps lib lib.length i) len (own ++ rest))))
    | .pair _ => some .abort
    | .adaptation => some .abort
/-- `CTypeElement::populate` (TypeElement.cpp:88-105). -/
def instElems (lib : List TypeDef) (typeContent : Nat → Run (List IElem)) : List TElem → Run (List IElem)
  | [] => some (.ok [])
  | t :: ts =>
    Run.bind (instElem lib typeContent t) fun i =>
      Run.bind (instElems lib typeContent ts) fun is => some (.ok (i :: is))
end

/-- `CComponentType::populate` (ComponentType.cpp:113-125) of type number `i`, with at most `fuel`
nested calls. -/
def typeContent (lib : List TypeDef) : (fuel : Nat) → Nat → Run (List IElem)
  | 0, _ => none
  | fuel + 1, i =>
    match lib[i]? with
    | none => some .abort
    | some t =>
      Run.bind (instElems lib (typeContent lib fuel) t.children) fun own =>
        match t.ext with
        | none => some (.ok own)
        | some j => Run.bind (typeContent lib fuel j) fun rest => some (.ok (own ++ rest))

/-! ## A subsystem -/

/-- `getChildElement(strType, childElement)` (XmlElement.cpp:136-148): when there is no such child
`childElement` is left on the last one. -/
def childOrLast (x : SXml) (tag : Str) : Option SXml :=
  match x.children.find? (fun c => c.tag == tag) with
  | some c => some c
  | none => x.children.getLast?

/-- The mapping attribute of a subsystem (Subsystem.cpp:115-128). -/
def subsystemMap (x : SXml) : Out (Option MData) :=
  match x.attr (s "Mapping") with
  | none => .ok none
  | some raw =>
    if raw = [] then .ok none
    else
      match MData.init raw with
      | none => .err
      | some m => .ok (some m)

/-- What `CSubsystem::structureFromXml` reads (Subsystem.cpp:96-143): the component library and the
declarations of the instances.  The tag of the instance definition is misspelt in the code
("InstanceDefintion"), so that it is always the last child that is taken.  Without any child the code
dereferences a null pointer. -/
def loadDeclarations (rd : Reader) (x : SXml) : Out (Option MData × List TypeDef × List TElem) :=
  (subsystemMap x).bind fun m =>
    match childOrLast x (s "ComponentLibrary") with
    | none => .abort
    | some libx =>
      (loadLibItems rd [] libx.children).bind fun lib =>
        match childOrLast x (s "InstanceDefintion") with
        | none => .abort
        | some defx =>
          (typeAttrs defx).bind fun _ =>
            (loadElems rd (libNames lib) .other defx.children).bind fun ts => .ok (m, lib, ts)

/-- `structureFromXml` up to the mapping (Subsystem.cpp:96-143): the subsystem with the instances
made by `createInstances` (InstanceDefinition.cpp:54-57). -/
def loadInstances (rd : Reader) (fuel : Nat) (x : SXml) : Run IElem :=
  Run.bind (some (loadDeclarations rd x)) fun r =>
    Run.bind (instElems r.2.1 (typeContent r.2.1 fuel) r.2.2) fun is =>
      some (.ok (.mk x.nameAttr (.group (s "Subsystem")) r.1.toList is))

mutual
/-- The configurable element, without any syncer. -/
def IElem.elem : IElem → Elem
  | .mk n k _ cs => .mk n k none (IElem.elems cs)
/-- The configurable elements, without any syncer. -/
def IElem.elems : List IElem → List Elem
  | [] => []
  | i :: is => i.elem :: IElem.elems is
end

/-- The mapping data of the element at a position (see `MapDef`). -/
def IElem.mapsAt : IElem → Pos → List MData
  | .mk _ _ ms _, [] => ms
  | .mk _ _ _ cs, i :: p =>
    match cs[i]? with
    | none => []
    | some c => c.mapsAt p

/-- A builder of subsystems: the virtual subsystem, or the subsystem of a plugin with its context
keys and object creators. -/
inductive Plugin where
  | virtual
  | mapped (contextKeys : List Str) (creators : List Creator)

mutual
/-- Syncers are numbered from 0 in each subsystem by `Elem.mapSubsystem`; the model numbers those of
the whole system by adding an offset. -/
def Elem.shiftSyncers (k : Nat) : Elem → Elem
  | .mk n kd sy cs => .mk n kd (sy.map (· + k)) (Elem.shiftAll k cs)
/-- See `Elem.shiftSyncers`. -/
def Elem.shiftAll (k : Nat) : List Elem → List Elem
  | [] => []
  | c :: cs => c.shiftSyncers k :: Elem.shiftAll k cs
end

/-- `mapSubsystemElements` at the end of `structureFromXml` (Subsystem.cpp:145-153): the subsystem
with its syncers, and how many there are; `first` is the number of its first syncer.  A virtual
subsystem has one syncer for itself and maps nothing (VirtualSubsystem.cpp:52-76). -/
def mapInstances (pl : Plugin) (first : Nat) (i : IElem) : Out (Elem × Nat) :=
  match pl with
  | .virtual =>
    match i.elem with
    | .mk n k _ cs => .ok (.mk n k (some first) cs, 1)
  | .mapped keys creators =>
    (Elem.mapSubsystem ⟨keys, creators, i.mapsAt⟩ i.elem).bind fun r =>
      .ok (r.1.shiftSyncers first, r.2.length)

/-! ## The system -/

/-- The loop of `CElement::fromXml` on the system class (Element.cpp:143-190) from the subsystem
whose first syncer is number `first`: the builder is chosen by the attribute `Type`
(SubsystemElementBuilder.cpp:39-42, SubsystemLibrary.h); `plugins` is the subsystem library, with the
virtual subsystem and the fall back (SystemClass.cpp:97-122).  A child that is not a subsystem is
later used as one: `abort`. -/
def loadSubsystems (rd : Reader) (fuel : Nat) (plugins : Str → Option Plugin) (first : Nat) :
    List SXml → Run (List Elem)
  | [] => some (.ok [])
  | x :: xs =>
    if x.tag = s "Subsystem" then
      match plugins ((x.attr (s "Type")).getD []) with
      | none => some .err
      | some pl =>
        Run.bind (loadInstances rd fuel x) fun i =>
          Run.bind (some (mapInstances pl first i)) fun r =>
            Run.bind (loadSubsystems rd fuel plugins (first + r.2) xs) fun es => some (.ok (r.1 :: es))
    else
      match loadElem rd [] .other x with
      | .err => some .err
      | _ => some .abort

/-- `CParameterMgr::loadStructure` (ParameterMgr.cpp:488-538): the system class named `name` from the
root of the structure document. -/
def loadSystem (rd : Reader) (fuel : Nat) (plugins : Str → Option Plugin) (name : Str) (x : SXml) : Run Elem :=
  Run.bind (loadSubsystems rd fuel plugins 0 x.children) fun es =>
    some (.ok (.mk name (.group (s "SystemClass")) none es))

end PF
