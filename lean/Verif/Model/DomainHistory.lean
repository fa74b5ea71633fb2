import Verif.Model.Handle
import Verif.Model.XmlDomains

/-!
# Access to parameters through configurations; histories of domain operations

`parameter/ParameterMgr.cpp`, the parts without tuning mode (which is in `Verif.Model.Manager`).
-/

namespace PF

/-- What does not change during a history: the structure, the hardware, and the reader of
floating-point numerals (see `Verif.Model.Numeric`). -/
structure Env where
  root : Elem
  hw : Hardware
  rd : Reader

/-- `CInstanceConfigurableElement::sync` (InstanceConfigurableElement.cpp:174-200), called after a
successful set of the parameter at `p` (BaseParameter.cpp:147-175). -/
def Env.syncParam (env : Env) (autoSync : Bool) (p : Pos) (m : Mem) : Out Unit × Mem :=
  if !autoSync then (.ok (), m)
  else
    match env.root.getSyncer none p with
    | none => (.err, m)
    | some x =>
      (match env.hw m.log x m.main with
        | none => .ok ()
        | some _ => .err, ⟨m.main, m.log ++ [⟨x, m.main⟩]⟩)

/-- A text set on the main blackboard (ParameterMgr.cpp:2089-2109 with BaseParameter.cpp:147-175). -/
def Env.setMain (env : Env) (ctx : Ctx) (autoSync : Bool) (path text : Str) (m : Mem) : Out Unit × Mem :=
  match Elem.setText env.rd ctx env.root 0 m.main path text, env.root.accessTarget path with
  | (.ok (), b), some (p, _) => env.syncParam autoSync p ⟨b, m.log⟩
  | (o, b), _ => (o, ⟨b, m.log⟩)

/-- `setSettingsAsBytes` on the main blackboard (ConfigurableElement.cpp:241-275). -/
def Env.setMainBytes (env : Env) (autoSync : Bool) (p : Pos) (bs : List Byte) (m : Mem) : Out (List Str) × Mem :=
  match env.root.setBytes m.main p bs with
  | .err => (.err, m)
  | .abort => (.abort, m)
  | .ok b =>
    if !autoSync then (.ok [], ⟨b, m.log⟩)
    else (.ok (syncAll env.hw b (env.root.syncerSet p) m.log).2, ⟨b, (syncAll env.hw b (env.root.syncerSet p) m.log).1⟩)

/-- `setSettingsAsXML` on the main blackboard (ParameterMgr.cpp:1548-1577). -/
def Env.setMainXml (env : Env) (ctx : Ctx) (autoSync : Bool) (p : Pos) (x : XElem) (m : Mem) :
    Out (List Str) × Mem :=
  match Elem.setXml env.rd env.root ctx m.main p x with
  | (.err, b) => (.err, ⟨b, m.log⟩)
  | (.abort, b) => (.abort, ⟨b, m.log⟩)
  | (.ok (), b) =>
    if !autoSync then (.ok [], ⟨b, m.log⟩)
    else (.ok (syncAll env.hw b (env.root.syncerSet p) m.log).2, ⟨b, (syncAll env.hw b (env.root.syncerSet p) m.log).1⟩)

/-- A typed set of the parameter at `p` on the main blackboard: `parameter.access(copy, true, ...)`
(ElementHandle.cpp:210-221).  The context of a handle leaves the automatic synchronisation on
(ParameterAccessContext.h:93). -/
def Env.setMainVal (env : Env) (p : Pos) (v : HVal) (m : Mem) : Out Unit × Mem :=
  match env.root.at? p, env.root.offset 0 p with
  | some e, some off =>
    match setParamVal env.rd e.kind m.main off v with
    | (.ok (), b) => env.syncParam true p ⟨b, m.log⟩
    | (o, b) => (o, ⟨b, m.log⟩)
  | _, _ => (.err, m)

/-- The synchronisation of the whole system (ParameterMgr.cpp:2196-2220). -/
def Env.syncSystem (env : Env) (m : Mem) : Out (List Str) × Mem :=
  (.ok (syncAll env.hw m.main (env.root.syncerSet []) m.log).2,
    ⟨m.main, (syncAll env.hw m.main (env.root.syncerSet []) m.log).1⟩)

/-- `CConfigurableDomains::findConfigurationBlackboard` (ConfigurableDomains.cpp:567-592) after the
location of the element (ParameterMgr.cpp:2013-2043): the domain, the configuration, the associated
element that holds the setting, and whether the configuration is the last applied one. -/
def St.findBlackboard (root : Elem) (dom conf path : Str) (st : St) : Option (Domain × Config × Pos × Bool) :=
  match root.locate path, st.findDomain dom with
  | some p, some d =>
    if !st.attached.belongsTo p d.id then none
    else (d.findBlackboard conf p).map fun r => (d, r.1, r.2.1, r.2.2)
  | _, _ => none

/-- `accessConfigurationValue` for a set (ParameterMgr.cpp:2009-2086): in the configuration without
synchronisation, then in the main blackboard if the configuration is the last applied one. -/
def St.setConfigParam (env : Env) (ctx : Ctx) (autoSync : Bool) (dom conf path text : Str) (st : St) :
    Out Unit × St :=
  match st.findBlackboard env.root dom conf path with
  | none => (.err, st)
  | some (d, c, q, isLast) =>
    match c.area? q, env.root.offset 0 q with
    | some a, some base =>
      let r := Elem.setText env.rd ctx env.root base a.board path text
      let st' := st.setDomain (d.setConfig { c with areas := setArea q { a with board := r.2 } c.areas })
      match r.1 with
      | .ok () =>
        if isLast then
          let m := env.setMain ctx autoSync path text st.mem
          (m.1, { st' with mem := m.2 })
        else (.ok (), st')
      | o => (o, st')
    | _, _ => (.abort, st)

/-- `accessConfigurationValue` for a get (ParameterMgr.cpp:2009-2086): the value of the main
blackboard replaces that of the configuration if it is the last applied one. -/
def St.getConfigParam (root : Elem) (ctx : Ctx) (dom conf path : Str) (st : St) : Out Str :=
  match st.findBlackboard root dom conf path with
  | none => .err
  | some (_, c, q, isLast) =>
    match c.area? q, root.offset 0 q with
    | some a, some base =>
      (Elem.getText ctx root base a.board path).bind fun t =>
        if isLast then Elem.getText ctx root 0 st.mem.main path else .ok t
    | _, _ => .abort

/-- The operations a client can do that matter to domains and settings. Elements are designated by
their paths (`CElementLocator`, ParameterMgr.cpp:2425-2535), except by the handles, which refer to an
element (ElementHandle.h:55-60). -/
inductive DomOp where
  | createDomain (name : Str)
  | deleteDomain (name : Str)
  | deleteAllDomains
  | renameDomain (name new : Str)
  | setSequenceAwareness (name : Str) (aware : Bool)
  | createConfiguration (dom name : Str)
  | deleteConfiguration (dom name : Str)
  | renameConfiguration (dom name new : Str)
  | saveConfiguration (dom name : Str)
  | restoreConfiguration (autoSync : Bool) (dom name : Str)
  | addElement (dom path : Str)
  | removeElement (dom path : Str)
  | split (dom path : Str)
  | setElementSequence (dom name : Str) (paths : List Str)
  | setApplicationRule (dom name text : Str)
  | clearApplicationRule (dom name : Str)
  | setConfigurationParameter (ctx : Ctx) (autoSync : Bool) (dom conf path text : Str)
  | setParameter (ctx : Ctx) (autoSync : Bool) (path text : Str)
  | setElementBytes (autoSync : Bool) (path : Str) (bytes : List Byte)
  | handleSet (p : Pos) (v : HVal)
  | handleBytes (autoSync : Bool) (p : Pos) (bytes : List Byte)
  | setElementXml (ctx : Ctx) (autoSync : Bool) (path : Str) (doc : XElem)
  | handleXml (ctx : Ctx) (autoSync : Bool) (p : Pos) (doc : XElem)
  | importDomains (withSettings : Bool) (doc : Xml)
  | importDomain (overwrite withSettings : Bool) (doc : Xml)
  | sync
  | setCriterion (i : Nat) (v : BitVec 32)
  | askResync (i : Nat)
  | apply (force : Bool)

/-- The hardware errors of an operation make it fail although it is done. -/
def errorsOut : Out (List Str) → Out Unit
  | .ok [] => .ok ()
  | .ok _ => .err
  | .err => .err
  | .abort => .abort

/-- Operations on a located element (ParameterMgr.cpp:2400-2535). -/
def St.atPath (root : Elem) (path : Str) (st : St) (f : Pos → St → Out Unit × St) : Out Unit × St :=
  match root.locate path with
  | none => (.err, st)
  | some p => f p st

/-- One operation. -/
def DomOp.step (env : Env) (st : St) : DomOp → Out Unit × St
  | .createDomain name => st.createDomain name
  | .deleteDomain name => st.deleteDomain name
  | .deleteAllDomains => st.deleteAllDomains
  | .renameDomain name new => st.renameDomain name new
  | .setSequenceAwareness name aware => st.setSequenceAwareness name aware
  | .createConfiguration dom name => st.createConfiguration env.root dom name
  | .deleteConfiguration dom name => st.deleteConfiguration dom name
  | .renameConfiguration dom name new => st.renameConfiguration dom name new
  | .saveConfiguration dom name => st.saveConfiguration env.root dom name
  | .restoreConfiguration autoSync dom name =>
    (errorsOut (st.restoreConfiguration env.root env.hw autoSync dom name).1,
     (st.restoreConfiguration env.root env.hw autoSync dom name).2)
  | .addElement dom path => st.atPath env.root path fun p st => st.addElement env.root dom p
  | .removeElement dom path => st.atPath env.root path fun p st => st.removeElement dom p
  | .split dom path => st.atPath env.root path fun p st => st.split env.root dom p
  | .setElementSequence dom name paths => st.setElementSequence env.root dom name paths
  | .setApplicationRule dom name text => st.setApplicationRule dom name text
  | .clearApplicationRule dom name => st.clearApplicationRule dom name
  | .setConfigurationParameter ctx autoSync dom conf path text => st.setConfigParam env ctx autoSync dom conf path text
  | .setParameter ctx autoSync path text =>
    ((env.setMain ctx autoSync path text st.mem).1, { st with mem := (env.setMain ctx autoSync path text st.mem).2 })
  | .setElementBytes autoSync path bytes => st.atPath env.root path fun p st =>
    (errorsOut (env.setMainBytes autoSync p bytes st.mem).1,
      { st with mem := (env.setMainBytes autoSync p bytes st.mem).2 })
  | .handleSet p v => ((env.setMainVal p v st.mem).1, { st with mem := (env.setMainVal p v st.mem).2 })
  | .handleBytes autoSync p bytes =>
    match env.root.at? p with
    | none => (.err, st)
    | some _ => (errorsOut (env.setMainBytes autoSync p bytes st.mem).1,
        { st with mem := (env.setMainBytes autoSync p bytes st.mem).2 })
  | .setElementXml ctx autoSync path doc => st.atPath env.root path fun p st =>
    (errorsOut (env.setMainXml ctx autoSync p doc st.mem).1,
      { st with mem := (env.setMainXml ctx autoSync p doc st.mem).2 })
  | .handleXml ctx autoSync p doc =>
    match env.root.at? p with
    | none => (.err, st)
    | some _ => (errorsOut (env.setMainXml ctx autoSync p doc st.mem).1,
        { st with mem := (env.setMainXml ctx autoSync p doc st.mem).2 })
  | .importDomains withSettings doc => st.importDomains env.root env.rd withSettings doc
  | .importDomain overwrite withSettings doc => st.importDomain env.root env.rd overwrite withSettings doc
  | .sync => (errorsOut (env.syncSystem st.mem).1, { st with mem := (env.syncSystem st.mem).2 })
  | .setCriterion i v => st.setCriterion i v
  | .askResync i => st.askResync i
  | .apply force => st.apply env.root env.hw force

/-- The state after the structure is loaded and before any domain exists (ParameterMgr.cpp:488-538). -/
def St.initial (root : Elem) (criteria : List Criterion) : St :=
  { mem := ⟨root.mainBoard, []⟩, criteria, domains := [], attached := [], nextId := 0, asked := [] }

/-- The names that elements of a document give are distinct. -/
def Xml.NamesDistinct (xs : List Xml) : Prop := ((xs.map Xml.nameAttr).filter (· ≠ [])).Nodup

/-- The configurations of the domain have distinct names: `ConfigurationKey` of
schemas/ConfigurableDomains.xsd. -/
def Xml.ConfigNamesDistinct (x : Xml) : Prop :=
  ∀ confs, x.childOrLast (s "Configurations") = some confs → Xml.NamesDistinct confs.children

/-- Every element of the domain has settings in at least one configuration. -/
def Xml.Complete (root : Elem) (withSettings : Bool) (x : Xml) : Prop :=
  ∀ els, x.childOrLast (s "ConfigurableElements") = some els → ∀ e ∈ els.children, ∀ p path,
    root.locate (e.attrText (s "Path")) = some p → root.path p = some path →
    ∃ y ∈ x.settingsList withSettings, ∃ z ∈ y.children, z.attrText (s "Path") = path

/-- The documents given to the imports of a history.  Without validation against the schema the code
does not check that names are distinct (schemas/ConfigurableDomains.xsd, `ConfigurableDomainUniqueness`
and `ConfigurationKey`), and the import of a single domain does not check that its settings are complete.
A domain without name answers to the name `ConfigurableDomain` (Element.cpp:267-276), so that an import
that overwrites a domain of this name can destroy another one.  What happens otherwise is shown beside
C64. -/
def DomOp.Regular (root : Elem) : DomOp → Prop
  | .importDomains _ doc => Xml.NamesDistinct doc.children ∧ ∀ x ∈ doc.children, x.ConfigNamesDistinct
  | .importDomain _ withSettings doc =>
    doc.ConfigNamesDistinct ∧ doc.Complete root withSettings ∧ doc.nameAttr ≠ s "ConfigurableDomain"
  | _ => True

/-- The state after some operations, from any content of the main blackboard: the back synchronisation
at the start (ParameterMgr.cpp:387-392) leaves it with what the hardware holds.  A stop (`abort`) ends
the history. -/
inductive Reachable (env : Env) (criteria : List Criterion) : St → Prop
  | init {main : Board} : main.length = env.root.footprint →
      Reachable env criteria { St.initial env.root criteria with mem := ⟨main, []⟩ }
  | step {st : St} {op : DomOp} : Reachable env criteria st → op.Regular env.root →
      (op.step env st).1 ≠ .abort → Reachable env criteria (op.step env st).2

/-- A blackboard full of zeros is one of them. -/
theorem Reachable.start {env : Env} {criteria : List Criterion} :
    Reachable env criteria (St.initial env.root criteria) :=
  .init (main := env.root.mainBoard) (by simp [Elem.mainBoard])

end PF
