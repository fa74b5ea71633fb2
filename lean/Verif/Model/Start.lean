import Verif.Model.Manager

/-!
# Model of the start of the framework

`CParameterMgr::load` (`parameter/ParameterMgr.cpp`) after the structure is loaded: the settings file,
the back synchronisation of what no domain sets (`BackSynchronizer.h`, `HardwareBackSynchronizer.cpp`,
`SimulatedBackSynchronizer.cpp`, `SubsystemObject.cpp`, `VirtualSyncer.cpp`), the validation of the
domains and the first, forced, application.
-/

namespace PF

/-! ## Default values -/

/-- `setDefaultValues` of the classes that override it (Parameter.cpp:84-96, ArrayParameter.cpp:178-200,
StringParameter.cpp:62-68, BitParameterBlock.cpp:62-76).  A bit parameter has no child to go to
(ConfigurableElement.cpp:294-306). -/
def EKind.setDefault (k : EKind) (b : Board) (off : Nat) : Out Board :=
  match k with
  | .group _ => .ok b
  | .bitBlock n => setBitBlockDefault n b off
  | .scalar t => writeScalar t.size b off t.default
  | .array t =>
    match setArrayDefault t b off with
    | (.ok _, b') => .ok b'
    | (.err, _) => .err
    | (.abort, _) => .abort
  | .string _ => setStringDefault b off
  | .bit _ => .ok b

mutual
/-- `setDefaultValues` (ConfigurableElement.cpp:294-306 and the overrides of `EKind.setDefault`) of an
element at offset `off` of the main blackboard. -/
def Elem.setDefaults : Elem → Nat → Board → Out Board
  | .mk _ k _ cs, off, b =>
    match k with
    | .group _ => Elem.setDefaultsAll cs off b
    | k => k.setDefault b off
/-- The loop over the children (ConfigurableElement.cpp:299-305). -/
def Elem.setDefaultsAll : List Elem → Nat → Board → Out Board
  | [], _, b => .ok b
  | c :: cs, off, b => (c.setDefaults off b).bind fun b' => Elem.setDefaultsAll cs (off + c.footprint) b'
end

/-! ## Back synchronisation -/

/-- `isApplicableConfigurationValid` (ConfigurableDomain.cpp:588-596).  The assertions that a rule can
be evaluated and that the configuration has an area for the element count as "not valid" here; on the
states of a start neither can fail. -/
def Domain.applicableValid (cs : List Criterion) (d : Domain) (p : Pos) : Bool :=
  match findApplicable cs d.configs with
  | some (some c) => c.isValid p == some true
  | _ => false

/-- `hasNoValidDomainAssociated` (ConfigurableElement.cpp:524-547). -/
def St.noValidDomain (st : St) (p : Pos) : Bool :=
  st.domains.all fun d => !(st.attached.contains (p, d.id) && d.applicableValid st.criteria p)

/-- The elements that need back synchronisation (BackSynchronizer.h:43-49). -/
def St.needBackSync (root : Elem) (st : St) : List Pos := (root.aggregate st.noValidDomain []).2

/-- `CSimulatedBackSynchronizer::sync` (SimulatedBackSynchronizer.cpp:44-55). -/
def Elem.backSimulated (root : Elem) : List Pos → Board → Out Board
  | [], b => .ok b
  | p :: ps, b =>
    match root.at? p, root.offset 0 p with
    | some e, some off => (e.setDefaults off b).bind (root.backSimulated ps)
    | _, _ => .abort

mutual
/-- The element a syncer belongs to (`_pInstanceConfigurableElement` of SubsystemObject.h,
`_pConfigurableElement` of VirtualSyncer.h): the first one, in the order of the structure. -/
def Elem.findSyncer (x : Nat) : Elem → Option Pos
  | .mk _ _ sy cs => if sy = some x then some [] else Elem.findSyncerAll x 0 cs
/-- The same among children. -/
def Elem.findSyncerAll (x : Nat) : Nat → List Elem → Option Pos
  | _, [] => none
  | i, c :: cs =>
    match c.findSyncer x with
    | some p => some (i :: p)
    | none => Elem.findSyncerAll x (i + 1) cs
end

/-- What the hardware behind a syncer answers to a back synchronisation: the bytes it gives to the
first bytes of its element (`receiveFromHW` with `blackboardWrite`, SubsystemObject.cpp:173-186;
`some []` is the default that relies on the content of the blackboard, SubsystemObject.cpp:152-158), or
`none` for a failure or a subsystem that is not alive.  A virtual subsystem always falls back to the
default values (VirtualSyncer.cpp:44-55), as if it failed. -/
abbrev Receive := Nat → Board → Option (List Byte)

/-- `sync` of a subsystem object towards the blackboard (SubsystemObject.cpp:107-142).  A plugin that
writes outside of its element is not considered. -/
def Elem.syncBack (root : Elem) (recv : Receive) (x : Nat) (b : Board) : Out Board :=
  match root.findSyncer x with
  | none => .abort
  | some p =>
    match root.at? p, root.offset 0 p with
    | some e, some off =>
      match recv x b with
      | none => e.setDefaults off b
      | some bs =>
        match b.write off (bs.take e.footprint) with
        | some b' => .ok b'
        | none => .abort
    | _, _ => .abort

/-- The loop of `CSyncerSet::sync` towards the blackboard (SyncerSet.cpp:55-80): the results are not
looked at. -/
def Elem.syncBackAll (root : Elem) (recv : Receive) : SyncerSet → Board → Out Board
  | [], b => .ok b
  | x :: xs, b => (root.syncBack recv x b).bind (root.syncBackAll recv xs)

/-- The syncers of the elements that need back synchronisation (HardwareBackSynchronizer.cpp:33-46). -/
def Elem.backSyncers (root : Elem) (ps : List Pos) : SyncerSet :=
  ps.foldl (fun acc p => SyncerSet.union acc (root.syncerSet p)) []

/-- The two back synchronisers (ParameterMgr.cpp:109-116: a choice at compilation). -/
inductive BackSync where
  | simulated
  | hardware (recv : Receive)

/-- `sync` of the back synchroniser on the elements that need it. -/
def BackSync.sync (root : Elem) (ps : List Pos) (b : Board) : BackSync → Out Board
  | .simulated => root.backSimulated ps b
  | .hardware recv => root.syncBackAll recv (root.backSyncers ps) b

/-! ## Settings -/

/-- The settings of the framework configuration file (ParameterMgr.cpp:561-615): none declared, a file
that is missing or is not XML (or no file location), or a document. -/
inductive Settings where
  | absent
  | unusable
  | doc (x : Xml)

/-- The document meets what the schema asks of names (see `DomOp.Regular`). -/
def Settings.Regular (root : Elem) : Settings → Prop
  | .doc x => (DomOp.importDomains true x).Regular root
  | _ => True

/-- `loadSettingsFromConfigFile` (ParameterMgr.cpp:561-615) with `xmlParse` (617-650): the import of
domains without the validation that follows it in `importDomainsXml`. -/
def St.loadSettingsFile (root : Elem) (rd : Reader) (st : St) : Settings → Out Unit × St
  | .absent => (.ok (), st)
  | .unusable => (.err, st)
  | .doc x =>
    let clean := st.deleteAllDomains.2
    if x.tag ≠ s "ConfigurableDomains" then (.err, clean)
    else if root.name ≠ [] ∧ x.attrText (s "SystemClassName") ≠ root.name then (.err, clean)
    else
      match domainsFromXml root rd st.criteria true x.children clean.nextId clean.attached with
      | .err => (.err, clean)
      | .abort => (.abort, clean)
      | .ok (ds, att, n) => (.ok (), { clean with domains := ds, attached := att, nextId := n })

/-- `loadSettings` (ParameterMgr.cpp:540-559): a failure is ignored unless `setFailureOnFailedSettingsLoad`
asks for it. -/
def St.loadSettings (root : Elem) (rd : Reader) (failOnError : Bool) (settings : Settings) (st : St) :
    Out Unit × St :=
  match st.loadSettingsFile root rd settings with
  | (.err, st') => (if failOnError then .err else .ok (), st')
  | r => r

/-! ## Start -/

/-- The end of `load` (ParameterMgr.cpp:388-423), with the settings loaded: back synchronisation,
validation of the domains, forced application.  The requests for resynchronisation are dropped
(ParameterMgr.cpp:415). -/
def St.finishStart (env : Env) (back : BackSync) (st : St) : Out Unit × St :=
  match back.sync env.root (st.needBackSync env.root) st.mem.main with
  | .ok main =>
    match mapAll (Domain.validate env.root main) st.domains with
    | none => (.abort, st)
    | some ds => { st with mem := { st.mem with main := main }, domains := ds }.apply env.root env.hw true
  | _ => (.abort, st)

/-- `load` (ParameterMgr.cpp:357-425) with a structure that was accepted: settings, then the rest. -/
def St.start (env : Env) (failOnError : Bool) (settings : Settings) (back : BackSync) (criteria : List Criterion) :
    Out Unit × St :=
  match (St.initial env.root criteria).loadSettings env.root env.rd failOnError settings with
  | (.ok _, st) => st.finishStart env back
  | r => r

/-- `start` of the connector (ParameterMgr.cpp:357-425): the modes of the manager are the initial ones. -/
def Mgr.start (e : MEnv) (failOnError : Bool) (settings : Settings) (back : BackSync) (criteria : List Criterion) :
    Out Unit × Mgr :=
  let r := St.start e.env failOnError settings back criteria
  (r.1, { Mgr.initial e.env.root criteria with st := r.2 })

end PF
