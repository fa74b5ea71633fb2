import Verif.Model.Tree
import Verif.Model.RuleParser

/-!
# Model of configurable domains

`parameter/SyncerSet.cpp`, `AreaConfiguration.cpp`, `BitwiseAreaConfiguration.cpp`,
`DomainConfiguration.cpp`, `ConfigurableDomain.cpp`, `ConfigurableDomains.cpp`.

`root` is the structure (it does not change once loaded).  Addresses of domains and configurations
are represented by numbers that are never used twice.  In the functions below that return an
`Option`, `none` is a failed assertion, a dangling pointer or an access outside a memory.
`assert` (as opposed to `ALWAYS_ASSERT`) only stops debug builds; the model stops in both cases.
-/

namespace PF

/-! ## Synchronisation -/

/-- One call of `ISyncer::sync` with `bBack = false`: the syncer and the main blackboard it is given. -/
structure SyncEvent where
  syncer : Nat
  board : Board
deriving Repr, DecidableEq

/-- The hardware: the error reported by a syncer (`none`: success) may depend on everything that
was synchronised before. It does not change the blackboard. -/
abbrev Hardware := List SyncEvent → Nat → Board → Option Str

/-- `CSyncerSet::sync` (SyncerSet.cpp:55-79): every syncer is called; the errors of those that fail
are collected.  The C++ result is `true` iff there is no error.  A failing syncer is taken to set
its error text (the code would report the text of the previous one again if it did not). -/
def syncAll (hw : Hardware) (main : Board) : SyncerSet → List SyncEvent → List SyncEvent × List Str
  | [], log => (log, [])
  | x :: xs, log =>
    ((syncAll hw main xs (log ++ [⟨x, main⟩])).1,
     (hw log x main).toList ++ (syncAll hw main xs (log ++ [⟨x, main⟩])).2)

/-- The main blackboard and the synchronisations done so far. -/
structure Mem where
  main : Board
  log : List SyncEvent
deriving Repr, DecidableEq

/-! ## Areas -/

/-- `CAreaConfiguration` (AreaConfiguration.h: `_pConfigurableElement`, `_blackboard`, `_bValid`).
`_pSyncerSet` points into the map of the domain and is looked up there. -/
structure Area where
  elem : Pos
  board : Board
  valid : Bool
deriving Repr, DecidableEq

/-- Size of the memory of an area (AreaConfiguration.cpp:35-52; for a bit parameter the size of its
block, BitwiseAreaConfiguration.cpp:36-41, BitParameter.cpp `createAreaConfiguration`). -/
def Elem.areaSize (e : Elem) : Nat :=
  match e.kind with
  | .bit t => t.blockSize
  | _ => e.footprint

/-- `createAreaConfiguration` (ConfigurableElement.cpp:196-200): zeroed memory, not valid
(AreaConfiguration.h `_bValid{false}`). -/
def Area.new (root : Elem) (p : Pos) : Option Area :=
  (root.at? p).map fun e => { elem := p, board := List.replicate e.areaSize 0#8, valid := false }

/-- The read/modify/write of `CBitwiseAreaConfiguration` (BitwiseAreaConfiguration.cpp:44-65, 67-88):
the field of the bit parameter goes from `src` to `dst`. -/
def blockMerge (t : BitType) (dst : Board) (doff : Nat) (src : Board) (soff : Nat) : Option Board :=
  match dst.read doff t.blockSize, src.read soff t.blockSize with
  | some d, some u =>
    dst.write doff (encLE t.blockSize (t.merge (BitVec.ofNat 64 (decLE d)) (BitVec.ofNat 64 (decLE u))).toNat)
  | _, _ => none

/-- `copyTo` (AreaConfiguration.cpp:175-178, BitwiseAreaConfiguration.cpp:44-64). -/
def Area.copyTo (root : Elem) (a : Area) (dst : Board) (off : Nat) : Option Board :=
  match root.at? a.elem with
  | none => none
  | some e =>
    match e.kind with
    | .bit t => blockMerge t dst off a.board 0
    | _ => dst.write off a.board

/-- `copyFrom` (AreaConfiguration.cpp:180-183, BitwiseAreaConfiguration.cpp:67-88). -/
def Area.copyFrom (root : Elem) (a : Area) (src : Board) (off : Nat) : Option Area :=
  match root.at? a.elem with
  | none => none
  | some e =>
    match e.kind with
    | .bit t => (blockMerge t a.board 0 src off).map fun b => { a with board := b }
    | _ => (src.read off a.board.length).map fun b => { a with board := b }

/-- `save` (AreaConfiguration.cpp:52-55). -/
def Area.save (root : Elem) (main : Board) (a : Area) : Option Area :=
  match root.offset 0 a.elem with
  | none => none
  | some off => a.copyFrom root main off

/-- `restore` (AreaConfiguration.cpp:58-68) without the synchronisation. -/
def Area.restore (root : Elem) (a : Area) (main : Board) : Option Board :=
  if !a.valid then none
  else
    match root.offset 0 a.elem with
    | none => none
    | some off => a.copyTo root main off

/-- `validate` (AreaConfiguration.cpp:70-80). -/
def Area.validate (root : Elem) (main : Board) (a : Area) : Option Area :=
  if a.valid then some a else (a.save root main).map fun a => { a with valid := true }

/-- `validateAgainst` (AreaConfiguration.cpp:88-105): `restoreFrom` at offset 0. -/
def Area.validateAgainst (a other : Area) : Option Area :=
  if a.valid || !other.valid || a.elem != other.elem then none
  else (a.board.write 0 other.board).map fun b => { a with board := b, valid := true }

/-- `copyToOuter` (AreaConfiguration.cpp:137-144); the second area is the one written. -/
def Area.copyToOuter (root : Elem) (a to : Area) : Option Area :=
  if !a.elem.isDescendantOf to.elem then none
  else
    match root.offset 0 a.elem, root.offset 0 to.elem with
    | some o, some u => (a.copyTo root to.board (o - u)).map fun b => { to with board := b }
    | _, _ => none

/-- `copyFromOuter` (AreaConfiguration.cpp:146-156). -/
def Area.copyFromOuter (root : Elem) (a frm : Area) : Option Area :=
  if !a.elem.isDescendantOf frm.elem then none
  else
    match root.offset 0 a.elem, root.offset 0 frm.elem with
    | some o, some u => (a.copyFrom root frm.board (o - u)).map fun a => { a with valid := true }
    | _, _ => none

/-! ## Configurations -/

/-- `CDomainConfiguration`: address, name, `_pRule` (child), `mAreaConfigurationList`. -/
structure Config where
  id : Nat
  name : Str
  rule : Option Rule
  areas : List Area
deriving Repr

/-- `getPathName` (Element.cpp:267-276, kind at DomainConfiguration.cpp:54-57). -/
def Config.pathName (c : Config) : Str := if c.name ≠ [] then c.name else s "Configuration"

/-- Apply a function that may stop to every element of a list. -/
def mapAll {α β : Type} (f : α → Option β) : List α → Option (List β)
  | [] => some []
  | a :: as =>
    match f a, mapAll f as with
    | some b, some bs => some (b :: bs)
    | _, _ => none

/-- `getAreaConfiguration` (DomainConfiguration.cpp:450-462): `none` is the failed `ALWAYS_ASSERT`. -/
def Config.area? (c : Config) (p : Pos) : Option Area := c.areas.find? (fun a => a.elem == p)

/-- Replaces the first area of an element (areas are changed through `getAreaConfiguration`). -/
def setArea (p : Pos) (a' : Area) : List Area → List Area
  | [] => []
  | a :: as => if a.elem = p then a' :: as else a :: setArea p a' as

/-- `addConfigurableElement` (DomainConfiguration.cpp:214-218). -/
def Config.addElem (root : Elem) (p : Pos) (c : Config) : Option Config :=
  (Area.new root p).map fun a => { c with areas := c.areas ++ [a] }

/-- `removeConfigurableElement` (DomainConfiguration.cpp:220-226). -/
def Config.removeElem (p : Pos) (c : Config) : Option Config :=
  match c.area? p with
  | none => none
  | some _ => some { c with areas := c.areas.eraseP (fun a => a.elem == p) }

/-- `save` (DomainConfiguration.cpp:327-333). -/
def Config.save (root : Elem) (main : Board) (c : Config) : Option Config :=
  (mapAll (Area.save root main) c.areas).map fun as => { c with areas := as }

/-- `restore` (DomainConfiguration.cpp:336-343) on the area list, with the synchronisation of
`CAreaConfiguration::restore` (AreaConfiguration.cpp:65-66).  Every area is restored whatever the
earlier results; the C++ result is `true` iff no error is collected. -/
def restoreAreas (root : Elem) (hw : Hardware) (syncOf : Pos → Option SyncerSet) (bSync : Bool) :
    List Area → Mem → Option (Mem × List Str)
  | [], m => some (m, [])
  | a :: as, m =>
    match a.restore root m.main with
    | none => none
    | some main =>
      if bSync then
        match syncOf a.elem with
        | none => none
        | some ss =>
          match restoreAreas root hw syncOf bSync as ⟨main, (syncAll hw main ss m.log).1⟩ with
          | none => none
          | some (m', errs) => some (m', (syncAll hw main ss m.log).2 ++ errs)
      else restoreAreas root hw syncOf bSync as ⟨main, m.log⟩

/-- `validate(element, main)` (DomainConfiguration.cpp:346-353). -/
def Config.validateElem (root : Elem) (main : Board) (p : Pos) (c : Config) : Option Config :=
  match c.area? p with
  | none => none
  | some a => (a.validate root main).map fun a' => { c with areas := setArea p a' c.areas }

/-- `validate(main)` (DomainConfiguration.cpp:356-362). -/
def Config.validate (root : Elem) (main : Board) (c : Config) : Option Config :=
  (mapAll (Area.validate root main) c.areas).map fun as => { c with areas := as }

/-- `validateAgainst(configuration, element)` (DomainConfiguration.cpp:377-386). -/
def Config.validateElemAgainst (other : Config) (p : Pos) (c : Config) : Option Config :=
  match c.area? p, other.area? p with
  | some a, some b => (a.validateAgainst b).map fun a' => { c with areas := setArea p a' c.areas }
  | _, _ => none

/-- The loop of `validateAgainst(configuration)` (DomainConfiguration.cpp:397-405). -/
def Config.validateLoop (c : Config) : List Area → Option Config
  | [] => some c
  | b :: bs =>
    match c.area? b.elem with
    | none => none
    | some a =>
      match a.validateAgainst b with
      | none => none
      | some a' => Config.validateLoop { c with areas := setArea b.elem a' c.areas } bs

/-- `validateAgainst(configuration)` (DomainConfiguration.cpp:389-405). -/
def Config.validateAgainst (other c : Config) : Option Config :=
  if c.areas.length ≠ other.areas.length then none else c.validateLoop other.areas

/-- `isApplicable` (DomainConfiguration.cpp:408-413). -/
def Config.isApplicable (cs : List Criterion) (c : Config) : Option Bool :=
  match c.rule with
  | none => some false
  | some r => r.matches cs

/-- `merge(to, from)` (DomainConfiguration.cpp:416-425). -/
def Config.merge (root : Elem) (to frm : Pos) (c : Config) : Option Config :=
  match c.area? to, c.area? frm with
  | some a, some b => (b.copyToOuter root a).map fun a' => { c with areas := setArea to a' c.areas }
  | _, _ => none

/-- The loop of `split` (DomainConfiguration.cpp:437-447) over the children of the element. -/
def Config.splitLoop (root : Elem) (frm : Area) : List Pos → Config → Option Config
  | [], c => some c
  | p :: ps, c =>
    match c.area? p with
    | none => none
    | some a =>
      match a.copyFromOuter root frm with
      | none => none
      | some a' => Config.splitLoop root frm ps { c with areas := setArea p a' c.areas }

/-- Positions of the children of an element. -/
def Elem.childPositions (root : Elem) (p : Pos) : List Pos :=
  match root.at? p with
  | none => []
  | some e => (List.range e.children.length).map fun i => p ++ [i]

/-- `split` (DomainConfiguration.cpp:428-448). -/
def Config.split (root : Elem) (p : Pos) (c : Config) : Option Config :=
  match c.area? p with
  | none => none
  | some a => c.splitLoop root a (root.childPositions p)

/-- `getBlackboard` (DomainConfiguration.cpp:312-324). -/
def Config.blackboard (c : Config) (p : Pos) : Option Board := (c.area? p).map (·.board)

/-- `findAreaConfigurationByPath` (DomainConfiguration.cpp:464-473) in a list of areas. -/
def areaByPath (root : Elem) (path : Str) (as : List Area) : Option Area :=
  as.find? (fun a => root.path a.elem == some path)

/-- The loop of `setElementSequence` (DomainConfiguration.cpp:233-256).  `front` are the areas
before the insertion point, which are those of the paths already seen (`seen`); the area found is
moved to the insertion point.  The list of areas comes with the result because it stays as it is
when a path is refused. -/
def sequenceLoop (root : Elem) : (seen : List Str) → (front back : List Area) → List Str →
    Out Unit × List Area
  | _, front, back, [] => (.ok (), front ++ back)
  | seen, front, back, path :: paths =>
    match areaByPath root path (front ++ back) with
    | none => (.err, front ++ back)
    | some a =>
      if path ∈ seen then (.err, front ++ back)
      else sequenceLoop root (seen ++ [path]) (front ++ [a])
        (back.eraseP (fun b => b.elem == a.elem)) paths

/-- `setElementSequence` (DomainConfiguration.cpp:228-258). -/
def Config.setSequence (root : Elem) (paths : List Str) (c : Config) : Out Unit × Config :=
  ((sequenceLoop root [] [] c.areas paths).1,
   { c with areas := (sequenceLoop root [] [] c.areas paths).2 })

/-- `getElementSequence` (DomainConfiguration.cpp:260-268). -/
def Config.sequenceText (root : Elem) (c : Config) : Str :=
  '\n' :: (c.areas.map fun a => (root.path a.elem).getD [] ++ ['\n']).flatten

/-- `setApplicationRule` (DomainConfiguration.cpp:270-286). -/
def Config.setRule (cs : List Criterion) (text : Str) (c : Config) : Out Unit × Config :=
  match parseRule cs text with
  | .ok r => (.ok (), { c with rule := some r })
  | .err _ => (.err, c)
  | .abort => (.abort, c)
  | .outOfFuel => (.abort, c)

/-- `clearApplicationRule` (DomainConfiguration.cpp:288-292). -/
def Config.clearRule (c : Config) : Config := { c with rule := none }

/-- `getApplicationRule` (DomainConfiguration.cpp:294-298). -/
def Config.ruleText (cs : List Criterion) (c : Config) : Str :=
  match c.rule with
  | none => s "<none>"
  | some r => r.dump cs

/-! ## Domains -/

/-- `CConfigurableDomain` (ConfigurableDomain.h: `_bSequenceAware`, `_configurableElementList`,
children, `_pLastAppliedConfiguration`, `_configurableElementToSyncerSetMap`, `_syncerSet`). -/
structure Domain where
  id : Nat
  name : Str
  seqAware : Bool
  elems : List Pos
  configs : List Config
  last : Option Nat
  syncMap : List (Pos × SyncerSet)
  syncSet : SyncerSet
deriving Repr

/-- The lists of attached domains of all the elements (ConfigurableElement.h
`_configurableDomainList`): pairs of an element and a domain. -/
abbrev Attached := List (Pos × Nat)

/-- `getPathName` (Element.cpp:267-276, kind at ConfigurableDomain.cpp:72-75). -/
def Domain.pathName (d : Domain) : Str := if d.name ≠ [] then d.name else s "ConfigurableDomain"

/-- Constructor (ConfigurableDomain.cpp:45-47, ConfigurableDomain.h defaults). -/
def Domain.new (id : Nat) (name : Str) : Domain :=
  { id, name, seqAware := false, elems := [], configs := [], last := none, syncMap := [], syncSet := [] }

/-- `getSyncerSet` (ConfigurableDomain.cpp:1182-1192); also what the areas point to. -/
def Domain.syncOf (d : Domain) (p : Pos) : Option SyncerSet := d.syncMap.lookup p

/-- `findConfiguration` (ConfigurableDomain.cpp:1194-1221, `findChild` Element.cpp:464-488). -/
def Domain.findConfig (d : Domain) (name : Str) : Option Config := d.configs.find? (fun c => c.pathName == name)

/-- Replaces the configuration at an address. -/
def Domain.setConfig (d : Domain) (c : Config) : Domain :=
  { d with configs := d.configs.map fun x => if x.id = c.id then c else x }

/-- Applies to all the configurations. -/
def Domain.mapConfigs (d : Domain) (f : Config → Option Config) : Option Domain :=
  (mapAll f d.configs).map fun cs => { d with configs := cs }

/-- `belongsTo` (ConfigurableElement.cpp:431-438, 595-623): the element or an ancestor is attached. -/
def Attached.belongsTo (att : Attached) (p : Pos) (id : Nat) : Bool :=
  att.any fun x => x.2 == id && decide (x.1 <+: p)

/-- `computeSyncSet` (ConfigurableDomain.cpp:599-614). -/
def Domain.computeSyncSet (d : Domain) : Domain :=
  { d with syncSet := d.syncMap.foldl (fun acc x => acc.union x.2) [] }

/-- `doRemoveConfigurableElement` (ConfigurableDomain.cpp:1148-1179). -/
def Domain.doRemove (d : Domain) (att : Attached) (p : Pos) (recompute : Bool) : Option (Domain × Attached) :=
  match d.syncOf p with
  | none => none
  | some _ =>
    match mapAll (Config.removeElem p) d.configs with
    | none => none
    | some cs =>
      let d' : Domain := { d with elems := d.elems.filter (· ≠ p), syncMap := d.syncMap.filter (fun x => x.1 ≠ p), configs := cs }
      some (if recompute then d'.computeSyncSet else d', att.filter (· ≠ (p, d.id)))

/-- The first loop of `mergeAlreadyAssociatedDescendantConfigurableElements`
(ConfigurableDomain.cpp:1046-1064) with `mergeConfigurations` (1084-1098). -/
def Domain.mergeLoop (root : Elem) (p : Pos) : List Pos → Domain → Option Domain
  | [], d => some d
  | q :: qs, d =>
    match d.mapConfigs (Config.merge root p q) with
    | none => none
    | some d' => Domain.mergeLoop root p qs d'

/-- The second loop of `mergeAlreadyAssociatedDescendantConfigurableElements`
(ConfigurableDomain.cpp:1067-1079). -/
def Domain.removeLoop : List Pos → Domain → Attached → Option (Domain × Attached)
  | [], d, att => some (d, att)
  | q :: qs, d, att =>
    match d.doRemove att q false with
    | none => none
    | some (d', att') => Domain.removeLoop qs d' att'

/-- `validateAreas` (ConfigurableDomain.cpp:896-911), called only if there is a main blackboard
(ConfigurableDomain.cpp:1126-1133). -/
def Domain.validateNew (root : Elem) (p : Pos) (main : Option Board) (d : Domain) : Option Domain :=
  match main with
  | none => some d
  | some b => d.mapConfigs (Config.validateElem root b p)

/-- `doAddConfigurableElement` (ConfigurableDomain.cpp:1101-1146); `main` is the optional main
blackboard. -/
def Domain.doAdd (root : Elem) (d : Domain) (att : Attached) (p : Pos) (main : Option Board) :
    Option (Domain × Attached) :=
  let ss := root.syncerSet p
  match mapAll (Config.addElem root p) d.configs with
  | none => none
  | some cs =>
    let d1 : Domain := { d with syncMap := d.syncMap.filter (fun x => x.1 ≠ p) ++ [(p, ss)], syncSet := d.syncSet.union ss, configs := cs }
    match d1.validateNew root p main with
    | none => none
    | some d2 =>
      let merged := d2.elems.filter (fun q => Pos.isDescendantOf q p)
      match d2.mergeLoop root p merged with
      | none => none
      | some d3 =>
        match d3.removeLoop merged (att ++ [(p, d.id)]) with
        | none => none
        | some (d4, att') => some ({ d4 with elems := d4.elems ++ [p] }, att')

/-- `addConfigurableElement` (ConfigurableDomain.cpp:364-389). -/
def Domain.addElem (root : Elem) (d : Domain) (att : Attached) (p : Pos) (main : Option Board) :
    Out (Domain × Attached) :=
  if p ∈ d.elems then .err
  else if att.belongsTo p d.id then .err
  else
    match d.doAdd root att p main with
    | none => .abort
    | some r => .ok r

/-- `removeConfigurableElement` (ConfigurableDomain.cpp:392-407). -/
def Domain.removeElem (d : Domain) (att : Attached) (p : Pos) : Out (Domain × Attached) :=
  if p ∉ d.elems then .err
  else
    match d.doRemove att p true with
    | none => .abort
    | some r => .ok r

/-- The loop of `split` over the children (ConfigurableDomain.cpp:496-502): no main blackboard. -/
def Domain.addAll (root : Elem) : List Pos → Domain → Attached → Option (Domain × Attached)
  | [], d, att => some (d, att)
  | q :: qs, d, att =>
    match d.doAdd root att q none with
    | none => none
    | some (d', att') => Domain.addAll root qs d' att'

/-- `split` (ConfigurableDomain.cpp:470-519). -/
def Domain.split (root : Elem) (d : Domain) (att : Attached) (p : Pos) : Out (Domain × Attached) :=
  if p ∉ d.elems then .err
  else if root.childPositions p = [] then .err
  else
    match d.addAll root (root.childPositions p) att with
    | none => .abort
    | some (d1, att1) =>
      match d1.mapConfigs (Config.split root p) with
      | none => .abort
      | some d2 =>
        match d2.doRemove att1 p false with
        | none => .abort
        | some r => .ok r

/-- `findApplicableDomainConfiguration` (ConfigurableDomain.cpp:1001-1016); the outer `none` is a
stop in the evaluation of a rule. -/
def findApplicable (cs : List Criterion) : List Config → Option (Option Config)
  | [] => some none
  | c :: rest =>
    match c.isApplicable cs with
    | none => none
    | some true => some (some c)
    | some false => findApplicable cs rest

/-- `apply` (ConfigurableDomain.cpp:542-585).  `ss` is `pSyncerSet` (`none`: null). -/
def Domain.apply (root : Elem) (hw : Hardware) (cs : List Criterion) (force : Bool) (d : Domain) (m : Mem)
    (ss : Option SyncerSet) : Option (Domain × Mem × Option SyncerSet) :=
  if ss.isNone != d.seqAware then some (d, m, ss)
  else
    let d : Domain := if force then { d with last := none } else d
    match findApplicable cs d.configs with
    | none => none
    | some none => some (d, m, ss)
    | some (some c) =>
      if d.last = some c.id then some (d, m, ss)
      else
        match restoreAreas root hw d.syncOf (ss.isNone && d.seqAware) c.areas m with
        | none => none
        | some (m', _) =>
          some ({ d with last := some c.id }, m',
            ss.map fun x => if !d.seqAware then x.union d.syncSet else x)

/-- `autoValidateConfiguration` (ConfigurableDomain.cpp:960-980) and the fallback of
`createConfiguration` (ConfigurableDomain.cpp:650-657): the new configuration `c` is the last child,
so the first other configuration is the first one of the domain before. -/
def Domain.fillNew (root : Elem) (main : Board) (d : Domain) (c : Config) : Option Config :=
  match d.configs with
  | [] => c.validate root main
  | other :: _ => Config.validateAgainst other c

/-- The loop of `createConfiguration` over the elements (ConfigurableDomain.cpp:632-645). -/
def Config.addElems (root : Elem) : List Pos → Config → Option Config
  | [], c => some c
  | p :: ps, c =>
    match c.addElem root p with
    | none => none
    | some c' => Config.addElems root ps c'

/-- `createConfiguration` (ConfigurableDomain.cpp:617-660); `id` is the address of the new object.
`getSyncerSet` is called for every element (`ALWAYS_ASSERT`). -/
def Domain.createConfig (root : Elem) (main : Board) (id : Nat) (name : Str) (d : Domain) : Out Domain :=
  match d.findConfig name with
  | some _ => .err
  | none =>
    if d.elems.any (fun p => (d.syncOf p).isNone) then .abort
    else
      match Config.addElems root d.elems { id, name, rule := none, areas := [] } with
      | none => .abort
      | some c =>
        match d.fillNew root main c with
        | none => .abort
        | some c' => .ok { d with configs := d.configs ++ [c'] }

/-- `deleteConfiguration` (ConfigurableDomain.cpp:662-686). -/
def Domain.deleteConfig (name : Str) (d : Domain) : Out Domain :=
  match d.findConfig name with
  | none => .err
  | some c => .ok { d with
      last := if d.last = some c.id then none else d.last,
      configs := d.configs.filter (·.id ≠ c.id) }

/-- `renameConfiguration` (ConfigurableDomain.cpp:700-712, `rename` Element.cpp:245-265). -/
def Domain.renameConfig (name new : Str) (d : Domain) : Out Domain :=
  match d.findConfig name with
  | none => .err
  | some c =>
    if d.configs.any (fun x => x.id != c.id && x.name == new) then .err
    else .ok (d.setConfig { c with name := new })

/-- `saveConfiguration` (ConfigurableDomain.cpp:742-757). -/
def Domain.saveConfig (root : Elem) (main : Board) (name : Str) (d : Domain) : Out Domain :=
  match d.findConfig name with
  | none => .err
  | some c =>
    match c.save root main with
    | none => .abort
    | some c' => .ok (d.setConfig c')

/-- `restoreConfiguration` (ConfigurableDomain.cpp:714-740): the errors are those of the hardware. -/
def Domain.restoreConfig (root : Elem) (hw : Hardware) (autoSync : Bool) (name : Str) (d : Domain) (m : Mem) :
    Out (Domain × Mem × List Str) :=
  match d.findConfig name with
  | none => .err
  | some c =>
    match restoreAreas root hw d.syncOf (autoSync && d.seqAware) c.areas m with
    | none => .abort
    | some (m', errs) =>
      let d' : Domain := { d with last := some c.id }
      if autoSync && !d.seqAware then
        .ok (d', ⟨m'.main, (syncAll hw m'.main d.syncSet m'.log).1⟩, errs ++ (syncAll hw m'.main d.syncSet m'.log).2)
      else .ok (d', m', errs)

/-- `getLastAppliedConfigurationName` (ConfigurableDomain.cpp:846-853).  A dangling pointer gives
`none`. -/
def Domain.lastName (d : Domain) : Option Str :=
  match d.last with
  | none => some (s "<none>")
  | some id => (d.configs.find? (fun c => c.id == id)).map (·.name)

/-- `getPendingConfigurationName` (ConfigurableDomain.cpp:856-877). -/
def Domain.pendingName (cs : List Criterion) (d : Domain) : Option Str :=
  match findApplicable cs d.configs with
  | none => none
  | some none => some (s "<none>")
  | some (some c) => some (if d.last ≠ some c.id then c.name else [])

/-- `findConfigurationBlackboard` (ConfigurableDomain.cpp:429-467): the associated element that
contains the element asked for, and whether the configuration is the last applied one.  `ok none`
cannot be distinguished from the error of an unknown configuration by the caller. -/
def Domain.findBlackboard (d : Domain) (config : Str) (p : Pos) : Option (Config × Pos × Bool) :=
  match d.findConfig config with
  | none => none
  | some c =>
    match d.elems.find? (fun q => decide (q <+: p)) with
    | none => none
    | some q => some (c, q, decide (d.last = some c.id))

/-! ## All the domains -/

/-- First pass of `CConfigurableDomains::apply` (ConfigurableDomains.cpp:71-84): domains in order,
with the syncer set. -/
def applyFirst (root : Elem) (hw : Hardware) (cs : List Criterion) (force : Bool) :
    List Domain → Mem → SyncerSet → Option (List Domain × Mem × SyncerSet)
  | [], m, ss => some ([], m, ss)
  | d :: ds, m, ss =>
    match d.apply root hw cs force m (some ss) with
    | none => none
    | some (d', m', ss') =>
      match applyFirst root hw cs force ds m' (ss'.getD ss) with
      | none => none
      | some (ds', m'', ss'') => some (d' :: ds', m'', ss'')

/-- Second pass (ConfigurableDomains.cpp:89-101): domains in order, without syncer set. -/
def applySecond (root : Elem) (hw : Hardware) (cs : List Criterion) (force : Bool) :
    List Domain → Mem → Option (List Domain × Mem)
  | [], m => some ([], m)
  | d :: ds, m =>
    match d.apply root hw cs force m none with
    | none => none
    | some (d', m', _) =>
      match applySecond root hw cs force ds m' with
      | none => none
      | some (ds', m'') => some (d' :: ds', m'')

/-- `CConfigurableDomains::apply` (ConfigurableDomains.cpp:65-102) with the syncer set made by
`doApplyConfigurations` (ParameterMgr.cpp:2930-2939). -/
def applyDomains (root : Elem) (hw : Hardware) (cs : List Criterion) (force : Bool) (ss : SyncerSet) (ds : List Domain)
    (m : Mem) : Option (List Domain × Mem) :=
  match applyFirst root hw cs force ds m ss with
  | none => none
  | some (ds1, m1, ss) => applySecond root hw cs force ds1 ⟨m1.main, (syncAll hw m1.main ss m1.log).1⟩

/-- The state behind the domain operations of the parameter manager. -/
structure St where
  mem : Mem
  criteria : List Criterion
  domains : List Domain
  attached : Attached
  nextId : Nat
  /-- The subsystems, by their place in the system class, for which `needResync` is true (Subsystem.h:66-73:
  a plugin overrides it). -/
  asked : List Nat := []
deriving Repr

/-- `findConfigurableDomain` (ConfigurableDomains.cpp:595-617). -/
def St.findDomain (st : St) (name : Str) : Option Domain := st.domains.find? (fun d => d.pathName == name)

/-- Replaces the domain at an address. -/
def St.setDomain (st : St) (d : Domain) : St :=
  { st with domains := st.domains.map fun x => if x.id = d.id then d else x }

/-- Common part of the operations on one domain (ConfigurableDomains.cpp: "Find domain", "Delegate").
A failure of the domain operation changes nothing. -/
def St.onDomain (st : St) (name : Str) (f : Domain → Out (Domain × Attached)) : Out Unit × St :=
  match st.findDomain name with
  | none => (.err, st)
  | some d =>
    match f d with
    | .ok (d', att) => (.ok (), { st.setDomain d' with attached := att })
    | .err => (.err, st)
    | .abort => (.abort, st)

/-- `createDomain` (ConfigurableDomains.cpp:116-130). -/
def St.createDomain (name : Str) (st : St) : Out Unit × St :=
  match st.findDomain name with
  | some _ => (.err, st)
  | none => (.ok (), { st with domains := st.domains ++ [Domain.new st.nextId name], nextId := st.nextId + 1 })

/-- `deleteDomain` (ConfigurableDomains.cpp:154-171) with the destructor
(ConfigurableDomain.cpp:49-69), which detaches the elements of the list. -/
def St.deleteDomain (name : Str) (st : St) : Out Unit × St :=
  match st.findDomain name with
  | none => (.err, st)
  | some d => (.ok (), { st with
      domains := st.domains.filter (·.id ≠ d.id),
      attached := st.attached.filter (fun x => !(x.2 == d.id && d.elems.contains x.1)) })

/-- `deleteAllDomains` (ConfigurableDomains.cpp:173-177, `clean` and `removeChildren`
Element.cpp:387-411): every domain is destroyed. -/
def St.deleteAllDomains (st : St) : Out Unit × St :=
  (.ok (), { st with
    domains := [],
    attached := st.attached.filter (fun x => !(st.domains.any fun d => x.2 == d.id && d.elems.contains x.1)) })

/-- `renameDomain` (ConfigurableDomains.cpp:179-191, `rename` Element.cpp:245-265). -/
def St.renameDomain (name new : Str) (st : St) : Out Unit × St :=
  match st.findDomain name with
  | none => (.err, st)
  | some d =>
    if st.domains.any (fun x => x.id != d.id && x.name == new) then (.err, st)
    else (.ok (), st.setDomain { d with name := new })

/-- `setSequenceAwareness` (ConfigurableDomains.cpp:193-206, ConfigurableDomain.cpp:96-102). -/
def St.setSequenceAwareness (name : Str) (aware : Bool) (st : St) : Out Unit × St :=
  st.onDomain name fun d => .ok ({ d with seqAware := aware }, st.attached)

/-- `createConfiguration` (ConfigurableDomains.cpp:238-252). -/
def St.createConfiguration (root : Elem) (dom name : Str) (st : St) : Out Unit × St :=
  match st.findDomain dom with
  | none => (.err, st)
  | some d =>
    match d.createConfig root st.mem.main st.nextId name with
    | .ok d' => (.ok (), { st.setDomain d' with nextId := st.nextId + 1 })
    | .err => (.err, st)
    | .abort => (.abort, st)

/-- `deleteConfiguration` (ConfigurableDomains.cpp:254-266). -/
def St.deleteConfiguration (dom name : Str) (st : St) : Out Unit × St :=
  st.onDomain dom fun d => (d.deleteConfig name).bind fun d' => .ok (d', st.attached)

/-- `renameConfiguration` (ConfigurableDomains.cpp:268-283). -/
def St.renameConfiguration (dom name new : Str) (st : St) : Out Unit × St :=
  st.onDomain dom fun d => (d.renameConfig name new).bind fun d' => .ok (d', st.attached)

/-- `saveConfiguration` (ConfigurableDomains.cpp:424-438). -/
def St.saveConfiguration (root : Elem) (dom name : Str) (st : St) : Out Unit × St :=
  st.onDomain dom fun d => (d.saveConfig root st.mem.main name).bind fun d' => .ok (d', st.attached)

/-- `addConfigurableElementToDomain` (ConfigurableDomains.cpp:536-551) as called by the manager, with
the main blackboard (ParameterMgr.cpp:2425-2450). -/
def St.addElement (root : Elem) (dom : Str) (p : Pos) (st : St) : Out Unit × St :=
  st.onDomain dom fun d => d.addElem root st.attached p (some st.mem.main)

/-- `removeConfigurableElementFromDomain` (ConfigurableDomains.cpp:553-565). -/
def St.removeElement (dom : Str) (p : Pos) (st : St) : Out Unit × St :=
  st.onDomain dom fun d => d.removeElem st.attached p

/-- `split` (ConfigurableDomains.cpp:300-316): the result of the domain is dropped. -/
def St.split (root : Elem) (dom : Str) (p : Pos) (st : St) : Out Unit × St :=
  match st.findDomain dom with
  | none => (.err, st)
  | some d =>
    match d.split root st.attached p with
    | .ok (d', att) => (.ok (), { st.setDomain d' with attached := att })
    | .err => (.ok (), st)
    | .abort => (.abort, st)

/-- `restoreConfiguration` (ConfigurableDomains.cpp:405-421).  The errors of the hardware come with
the result; the state is changed even if there are some. -/
def St.restoreConfiguration (root : Elem) (hw : Hardware) (autoSync : Bool) (dom name : Str) (st : St) :
    Out (List Str) × St :=
  match st.findDomain dom with
  | none => (.err, st)
  | some d =>
    match d.restoreConfig root hw autoSync name st.mem with
    | .ok (d', m, errs) => (.ok errs, { st.setDomain d' with mem := m })
    | .err => (.err, st)
    | .abort => (.abort, st)

/-- Operations on one configuration that keep what they changed when they fail. -/
def St.onConfig (st : St) (dom name : Str) (f : Config → Out Unit × Config) : Out Unit × St :=
  match st.findDomain dom with
  | none => (.err, st)
  | some d =>
    match d.findConfig name with
    | none => (.err, st)
    | some c => ((f c).1, st.setDomain (d.setConfig (f c).2))

/-- `setElementSequence` (ConfigurableDomains.cpp:440-456, ConfigurableDomain.cpp:760-774). -/
def St.setElementSequence (root : Elem) (dom name : Str) (paths : List Str) (st : St) : Out Unit × St :=
  st.onConfig dom name fun c => c.setSequence root paths

/-- `getElementSequence` (ConfigurableDomains.cpp:458-471, ConfigurableDomain.cpp:776-792). -/
def St.getElementSequence (root : Elem) (dom name : Str) (st : St) : Option Str :=
  match st.findDomain dom with
  | none => none
  | some d => (d.findConfig name).map fun c => c.sequenceText root

/-- `setApplicationRule` (ConfigurableDomains.cpp:473-488, ConfigurableDomain.cpp:794-809). -/
def St.setApplicationRule (dom name text : Str) (st : St) : Out Unit × St :=
  st.onConfig dom name fun c => c.setRule st.criteria text

/-- `clearApplicationRule` (ConfigurableDomains.cpp:489-501, ConfigurableDomain.cpp:811-825). -/
def St.clearApplicationRule (dom name : Str) (st : St) : Out Unit × St :=
  st.onConfig dom name fun c => (.ok (), c.clearRule)

/-- `getApplicationRule` (ConfigurableDomains.cpp:503-517, ConfigurableDomain.cpp:827-842). -/
def St.getApplicationRule (dom name : Str) (st : St) : Option Str :=
  match st.findDomain dom with
  | none => none
  | some d => (d.findConfig name).map fun c => c.ruleText st.criteria

/-- `checkForSubsystemsToResync` (SystemClass.cpp:228-245): the syncers of the subsystems that ask for it. -/
def Elem.resyncSet (root : Elem) (asked : List Nat) : SyncerSet :=
  (List.range root.children.length).foldl
    (fun acc i => if asked.contains i then acc.union (root.syncerSet [i]) else acc) []

/-- `doApplyConfigurations` (ParameterMgr.cpp:2928-2945): apply, with the subsystems that ask for a
resynchronisation, then reset the modified status of the criteria.  `needResync(true)` consumes the
request (SystemClass.cpp:237-238). -/
def St.apply (root : Elem) (hw : Hardware) (force : Bool) (st : St) : Out Unit × St :=
  match applyDomains root hw st.criteria force (root.resyncSet st.asked) st.domains st.mem with
  | none => (.abort, st)
  | some (ds, m) =>
    (.ok (), { st with domains := ds, mem := m, criteria := st.criteria.map Criterion.resetModified, asked := [] })

/-- A plugin asks for the resynchronisation of its subsystem: `needResync` of the subsystem will be true
until it is consumed. -/
def St.askResync (i : Nat) (st : St) : Out Unit × St := (.ok (), { st with asked := i :: st.asked })

/-- `setCriterionState` on a criterion of the manager (SelectionCriterion.cpp:63-86). -/
def St.setCriterion (i : Nat) (v : BitVec 32) (st : St) : Out Unit × St :=
  (.ok (), { st with criteria := st.criteria.mapIdx fun j c => if j = i then c.setState v else c })

end PF
