import Verif.Model.Start
import Verif.Model.Plugins

/-!
# Model of the start of the framework from its files

`CParameterMgr::load` (ParameterMgr.cpp:357-425) from the path of the configuration file to the remote processor server:
`loadFrameworkConfiguration`, `loadSubsystems`, `loadStructure` with the inclusion of files (`XmlFileIncluderElement.cpp`),
`loadSettings`, `handleRemoteProcessingInterface`; the classes of the configuration (`ParameterFrameworkConfiguration.cpp`,
`FrameworkConfigurationLocation.cpp`, `FrameworkConfigurationGroup.h`, `SubsystemPlugins.h`), and the policies of the connector
(`ParameterMgrPlatformConnector.cpp`).

Error texts and logs are left out.  libxml2, the schemas, the dynamic linker and the sockets are left open (`World`).
-/

namespace PF

/-! ## Results -/

/-- How a part of a start ends: with a result, with an error that `start` returns, with an exception that leaves `start`, by
stopping the program (an assertion, or undefined behaviour), or not at all within the number of nested calls given. -/
inductive Load (α : Type) where
  | ok (a : α)
  | refused
  | threw
  | stopped
  | endless

/-- Sequencing. -/
def Load.bind {α β : Type} (x : Load α) (f : α → Load β) : Load β :=
  match x with
  | .ok a => f a
  | .refused => .refused
  | .threw => .threw
  | .stopped => .stopped
  | .endless => .endless

/-- An error as one that `start` returns. -/
def Out.load {α : Type} : Out α → Load α
  | .ok a => .ok a
  | .err => .refused
  | .abort => .stopped

/-- See `Run`. -/
def Run.load {α : Type} : Run α → Load α
  | none => .endless
  | some r => r.load

/-! ## What is outside of the framework -/

/-- Files.  `uri base relative`: `CXmlDocSource::mkUri` (XmlDocSource.cpp:220-231), `none` when its assertion fails.  `doc`, `domains`:
the document of a file after `CXmlDocSource::mkXmlDoc` (XmlDocSource.cpp:233-261), as seen by the loading of structures and by
that of domains.  `valid`: `CXmlDocSource::isInstanceDocumentValid` (XmlDocSource.cpp:165-218). -/
structure Disk where
  uri : Str → Str → Option Str
  doc : Str → Option SXml
  domains : Str → Option Xml
  valid : Str → Bool

/-- Everything a start depends on besides the arguments of its client.  `plugin file type`: the subsystems of a type registered by a
plugin: context keys and creators.  `listens port`: `BackgroundRemoteProcessorServer::start`. -/
structure World where
  disk : Disk
  linker : Linker
  plugin : Str → Str → List Str × List Creator
  listens : Nat → Bool
  rd : Reader
  hw : Hardware
  back : BackSync
  addr : Pos → Nat

/-- `CXmlDocSource::populate` (XmlDocSource.cpp:116-163) of a document without a name to check. -/
def Disk.populate (d : Disk) (validate : Bool) (tag uri : Str) : Out SXml :=
  match d.doc uri with
  | none => .err
  | some x =>
    if validate && !d.valid uri then .err
    else if x.tag ≠ tag then .err
    else .ok x

/-! ## The framework configuration -/

/-- The elements of the framework configuration: a file location (FrameworkConfigurationLocation.h), a plugin location
(PluginLocation.h), or an element with children (SubsystemPlugins.h, FrameworkConfigurationGroup.h,
ParameterFrameworkConfiguration.h). -/
inductive FwItem where
  | file (name kind path : Str)
  | location (name : Str) (l : PluginLocation)
  | group (name kind : Str) (children : List FwItem)

/-- The attributes of `CParameterFrameworkConfiguration::fromXml` (ParameterFrameworkConfiguration.cpp:63-77): class name, whether
tuning is allowed, port. -/
def fwAttrs (x : SXml) : Out (Str × Bool × Nat) :=
  (match x.attr (s "TuningAllowed") with
    | none => Out.ok false
    | some t =>
      match convertBool t with
      | some b => .ok b
      | none => .err).bind fun allowed =>
    (x.num (s "ServerPort") false 16 0).bind fun port =>
      .ok ((x.attr (s "SystemClassName")).getD [], allowed, port.toNat)

mutual
/-- `createChild` (Element.cpp:300-322) with the framework configuration library (ParameterMgr.cpp:2740-2759) and `fromXml` of the
class: FrameworkConfigurationLocation.cpp:41-54, PluginLocation.cpp:49-67, ParameterFrameworkConfiguration.cpp:63-77,
Element.cpp:143-190. -/
def loadFwItem : SXml → Out FwItem
  | .mk t as cs =>
    if t = s "Location" then .ok (.location (SXml.mk t as cs).nameAttr (PluginLocation.ofXml (SXml.mk t as cs)))
    else if t = s "StructureDescriptionFileLocation" ∨ t = s "ConfigurableDomainsFileLocation" then
      let path := ((SXml.mk t as cs).attr (s "Path")).getD []
      if path = [] then .err else .ok (.file (SXml.mk t as cs).nameAttr t path)
    else if t = s "SubsystemPlugins" ∨ t = s "SettingsConfiguration" then
      (loadFwItems cs).bind fun is => .ok (.group (SXml.mk t as cs).nameAttr t is)
    else if t = s "ParameterFrameworkConfiguration" then
      (fwAttrs (SXml.mk t as cs)).bind fun _ => (loadFwItems cs).bind fun is => .ok (.group [] t is)
    else .err
/-- The loop of `CElement::fromXml` (Element.cpp:149-184). -/
def loadFwItems : List SXml → Out (List FwItem)
  | [] => .ok []
  | x :: xs => (loadFwItem x).bind fun i => (loadFwItems xs).bind fun is => .ok (i :: is)
end

/-- `getKind` (KindElement.h, PluginLocation.h). -/
def FwItem.kind : FwItem → Str
  | .file _ k _ => k
  | .location _ _ => s "Location"
  | .group _ k _ => k

/-- `getName`. -/
def FwItem.name : FwItem → Str
  | .file n _ _ => n
  | .location n _ => n
  | .group n _ _ => n

/-- `getPathName` (Element.cpp:267-277). -/
def FwItem.pathName (i : FwItem) : Str := if i.name ≠ [] then i.name else i.kind

/-- `findChild` (Element.cpp:477-488). -/
def findItem (is : List FwItem) (name : Str) : Option FwItem := is.find? (fun i => i.pathName == name)

/-- `findChildOfKind` (Element.cpp:503-514). -/
def findKind (is : List FwItem) (kind : Str) : Option FwItem := is.find? (fun i => i.kind == kind)

/-- `getUri` of what is cast to a file location; on another class this is undefined. -/
def FwItem.path : FwItem → Option Str
  | .file _ _ p => some p
  | _ => none

/-- A framework configuration: the attributes of its root, and its elements. -/
structure FwConfig where
  className : Str
  allowed : Bool
  port : Nat
  items : List FwItem

/-- `loadFrameworkConfiguration` (ParameterMgr.cpp:427-465) with `xmlParse` (ParameterMgr.cpp:617-650).  An attribute of the root that
does not convert throws (XmlElement.cpp:98-113), and nothing catches that; below the root it is caught (Element.cpp:187-190).  The
last part, for plugins, is in `pluginLocations`. -/
def loadConfiguration (d : Disk) (validate : Bool) (uri : Str) : Load FwConfig :=
  (d.populate validate (s "ParameterFrameworkConfiguration") uri).load.bind fun x =>
    match fwAttrs x with
    | .ok a => (loadFwItems x.children).load.bind fun is => .ok ⟨a.1, a.2.1, a.2.2, is⟩
    | _ => .threw

/-- The children of what is cast to the subsystem plugins, each cast to a plugin location (SystemClass.cpp:124-150). -/
def castLocations : List FwItem → Load (List PluginLocation)
  | [] => .ok []
  | .location _ l :: is => (castLocations is).bind fun ls => .ok (l :: ls)
  | _ :: _ => .stopped

/-- The plugin locations (ParameterMgr.cpp:449-458, SystemClass.cpp:124-150): the element is found by its path name, so that it may be
of another class; using that is undefined. -/
def pluginLocations (is : List FwItem) : Load (List PluginLocation) :=
  match findItem is (s "SubsystemPlugins") with
  | none => .refused
  | some (.group _ k cs) => if k = s "SubsystemPlugins" then castLocations cs else .stopped
  | some _ => .stopped

/-! ## The structure -/

/-- `CXmlFileIncluderElement::fromXml` (XmlFileIncluderElement.cpp:49-112) up to the loading of the child: the subsystem of the file.
The child is created before the root of the document is checked; that makes no difference, as both end in an error.  Other
elements than inclusions are left as they are. -/
def Disk.include (d : Disk) (validate : Bool) (base : Str) (x : SXml) : Out SXml :=
  if x.tag = s "SubsystemInclude" then
    match d.uri base ((x.attr (s "Path")).getD []) with
    | none => .abort
    | some u => d.populate validate (s "Subsystem") u
  else .ok x

/-- The loop of `CElement::fromXml` on the system class (Element.cpp:149-184), as `loadSubsystems`, with inclusions
(XmlFileIncluderElement.cpp:80-109): the child of an inclusion is added to the system class, and the inclusion removed from it. -/
def loadSubsystemFiles (d : Disk) (validate : Bool) (base : Str) (rd : Reader) (fuel : Nat) (plugins : Str → Option Plugin)
    (first : Nat) : List SXml → Run (List Elem)
  | [] => some (.ok [])
  | x :: xs =>
    Run.bind (some (d.include validate base x)) fun y =>
      if y.tag = s "Subsystem" then
        match plugins ((y.attr (s "Type")).getD []) with
        | none => some .err
        | some pl =>
          Run.bind (loadInstances rd fuel y) fun i =>
            Run.bind (some (mapInstances pl first i)) fun r =>
              Run.bind (loadSubsystemFiles d validate base rd fuel plugins (first + r.2) xs) fun es => some (.ok (r.1 :: es))
      else
        match loadElem rd [] .other y with
        | .err => some .err
        | _ => some .abort

/-- The document part of `loadStructure` (ParameterMgr.cpp:511-530): the system class named `name` from the file `uri`. -/
def loadSystemFile (d : Disk) (validate : Bool) (rd : Reader) (fuel : Nat) (plugins : Str → Option Plugin) (name uri : Str) : Load Elem :=
  (d.populate validate (s "SystemClass") uri).load.bind fun x =>
    (loadSubsystemFiles d validate uri rd fuel plugins 0 x.children).load.bind fun es =>
      .ok (.mk name (.group (s "SystemClass")) none es)

/-- `loadStructure` (ParameterMgr.cpp:488-538). -/
def loadStructure (d : Disk) (validate : Bool) (rd : Reader) (fuel : Nat) (plugins : Str → Option Plugin) (uri : Str) (c : FwConfig) :
    Load Elem :=
  match findKind c.items (s "StructureDescriptionFileLocation") with
  | none => .refused
  | some i =>
    match i.path with
    | none => .stopped
    | some p =>
      match d.uri uri p with
      | none => .stopped
      | some u => loadSystemFile d validate rd fuel plugins c.className u

/-! ## The settings -/

/-- What `loadSettingsFromConfigFile` finds (ParameterMgr.cpp:561-612). -/
def findSettings (d : Disk) (validate : Bool) (uri : Str) (c : FwConfig) : Load Settings :=
  match findKind c.items (s "SettingsConfiguration") with
  | none => .ok .absent
  | some (.group _ _ cs) =>
    match findKind cs (s "ConfigurableDomainsFileLocation") with
    | none => .ok .unusable
    | some i =>
      match i.path with
      | none => .stopped
      | some p =>
        match d.uri uri p with
        | none => .stopped
        | some u =>
          match d.domains u with
          | none => .ok .unusable
          | some x => if validate && !d.valid u then .ok .unusable else .ok (.doc x)
  | some _ => .stopped

/-! ## The start -/

/-- The policies of the manager (ParameterMgr.h:886-907), set through the connector. -/
structure Policies where
  failOnMissing : Bool
  failOnSettings : Bool
  validate : Bool
  noRemote : Bool
deriving Repr, DecidableEq

/-- Their initial values (ParameterMgr.h:890-907). -/
def Policies.initial : Policies := ⟨true, true, false, false⟩

/-- The subsystem library as a table of the structure. -/
def World.plugins (w : World) (st : PluginState) (type : Str) : Option Plugin :=
  (st.builderOf type).map fun
    | .virtual => .virtual
    | .plugin f t => .mapped (w.plugin f t).1 (w.plugin f t).2

/-- `loadSubsystems` (ParameterMgr.cpp:467-486) of a new system class. -/
def World.loadPlugins (w : World) (failOnMissing : Bool) (locs : List PluginLocation) : Load PluginState :=
  match w.linker.loadSubsystems ⟨[], [], false⟩ locs (!failOnMissing) with
  | none => .endless
  | some (ok, _, st) => if ok then .ok st else .refused

/-- `handleRemoteProcessingInterface` (ParameterMgr.cpp:2839-2878): the port that is listened to, if any. -/
def World.openPort (w : World) (noRemote allowed : Bool) (port : Nat) : Load (Option Nat) :=
  if !noRemote && allowed then if w.listens port then .ok (some port) else .refused
  else .ok none

/-- A framework that is started: its environment, its state, and the port it listens to. -/
structure Started where
  env : MEnv
  mgr : Mgr
  port : Option Nat

/-- `CParameterMgr::load` (ParameterMgr.cpp:357-425) on a new manager, with the criteria its client created.  The structure is loaded
with at most `fuel` nested instantiations of component types (see `Run`).  `init` (Element.cpp:70-82) has no effect on the model. -/
def startFramework (w : World) (pol : Policies) (uri : Str) (fuel : Nat) (cs : List Criterion) : Load Started :=
  (loadConfiguration w.disk pol.validate uri).bind fun c =>
    (pluginLocations c.items).bind fun locs =>
      (w.loadPlugins pol.failOnMissing locs).bind fun st =>
        (loadStructure w.disk pol.validate w.rd fuel (w.plugins st) uri c).bind fun root =>
          (findSettings w.disk pol.validate uri c).bind fun settings =>
            let e : MEnv := ⟨⟨root, w.hw, w.rd⟩, c.allowed, w.addr⟩
            match Mgr.start e pol.failOnSettings settings w.back cs with
            | (.ok (), m) => (w.openPort pol.noRemote c.allowed c.port).bind fun port => .ok ⟨e, m, port⟩
            | (.err, _) => .refused
            | (.abort, _) => .stopped

end PF
