import Verif.Model.DomainHistory

/-!
# Model of the manager

`parameter/ParameterMgr.cpp`: tuning mode, value space, output format, automatic synchronisation, and
which operations need tuning mode.  `parameter/ElementHandle.cpp`: sets through handles.
-/

namespace PF

/-- The state of the manager (ParameterMgr.h: `_bTuningModeIsOn`, `_bAutoSyncOn`, `_bValueSpaceIsRaw`,
`_bOutputRawFormatIsHex`), with the domains, the criteria and the main blackboard. -/
structure Mgr where
  st : St
  tuning : Bool
  autoSync : Bool
  raw : Bool
  hex : Bool

/-- What does not change: `TuningAllowed` of the configuration file
(ParameterFrameworkConfiguration.cpp:51-54, 70) is `allowed`; `addr` is the order of the addresses of the
elements, on which the order of two listings depends (`std::set<const CConfigurableElement *>`,
ConfigurableDomains.cpp:318-364). -/
structure MEnv where
  env : Env
  allowed : Bool
  addr : Pos → Nat

/-- The state after the structure is loaded and before any domain exists (ParameterMgr.h initial
values of the members; ParameterMgr.cpp:488-538). -/
def Mgr.initial (root : Elem) (criteria : List Criterion) : Mgr :=
  { st := St.initial root criteria, tuning := false, autoSync := true, raw := false, hex := false }

/-- The access context of the manager (ParameterMgr.cpp:1969-1970). -/
def Mgr.ctx (m : Mgr) : Ctx := ⟨m.raw, m.hex⟩

/-- An operation done without a check. -/
def Mgr.run (e : MEnv) (m : Mgr) (op : DomOp) : Out Unit × Mgr :=
  ((op.step e.env m.st).1, { m with st := (op.step e.env m.st).2 })

/-- An operation that needs tuning mode (`checkTuningModeOn`, ParameterMgr.cpp:2713-2723). -/
def Mgr.tuned (e : MEnv) (m : Mgr) (op : DomOp) : Out Unit × Mgr :=
  if !m.tuning then (.err, m) else m.run e op

/-- `applyConfigurations` (ParameterMgr.cpp:680-695). -/
def Mgr.applyConfigurations (e : MEnv) (m : Mgr) : Out Unit × Mgr :=
  if !m.tuning then m.run e (.apply false) else (.ok (), m)

/-- `setTuningMode` (ParameterMgr.cpp:2112-2140). -/
def Mgr.setTuningMode (e : MEnv) (m : Mgr) (on : Bool) : Out Unit × Mgr :=
  if on = m.tuning then (.err, m)
  else if on && !e.allowed then (.err, m)
  else if !on then
    match m.run e (.apply true) with
    | (.ok (), m') => (.ok (), { m' with tuning := on })
    | r => r
  else (.ok (), { m with tuning := on })

/-- `sync` (ParameterMgr.cpp:2196-2220). -/
def Mgr.sync (e : MEnv) (m : Mgr) : Out Unit × Mgr :=
  if m.autoSync then (.err, m) else m.run e .sync

/-- `setAutoSync` (ParameterMgr.cpp:2171-2188). -/
def Mgr.setAutoSync (e : MEnv) (m : Mgr) (on : Bool) : Out Unit × Mgr :=
  if on && !m.autoSync then
    match m.sync e with
    | (.ok (), m') => (.ok (), { m' with autoSync := on })
    | r => r
  else (.ok (), { m with autoSync := on })

/-- `setAs` (ElementHandle.cpp:196-221), for any of the value types.  The tuning mode is read without
the lock; here the operation is done at once (see C54 for the interleavings). -/
def Mgr.handleSet (e : MEnv) (m : Mgr) (p : Pos) (v : HVal) : Out Unit × Mgr :=
  if !e.env.root.setValid m.st.attached p v then (.err, m)
  else if m.tuning then (.ok (), m)
  else m.run e (.handleSet p v)

/-- `setElementBytesCommandProcess` (ParameterMgr.cpp:1470-1521).  The bytes are written through the
`begin` of an empty vector: a first argument that is a byte is an access outside memory (`abort`); a
first argument that is not one is refused; without argument the settings are set from no byte. -/
def Mgr.setElementBytes (e : MEnv) (m : Mgr) (path : Str) (args : List Str) : Out Unit × Mgr :=
  if !m.tuning then (.err, m)
  else
    match e.env.root.locate path with
    | none => (.err, m)
    | some _ =>
      match args with
      | [] => m.run e (.setElementBytes m.autoSync path [])
      | a :: _ =>
        match convertTo false 8 a with
        | none => (.err, m)
        | some _ => (.abort, m)

/-- The operations of the manager (ParameterMgr.h:84-585) and of the handles (ElementHandle.h:62-249)
that can change something.  Not included: the loading.  XML documents are given as trees
(`Verif.Model.XmlDomains`). -/
inductive MOp where
  | setTuningMode (on : Bool)
  | setValueSpace (raw : Bool)
  | setOutputRawFormat (hex : Bool)
  | setAutoSync (on : Bool)
  | sync
  | applyConfigurations
  | setCriterion (i : Nat) (v : BitVec 32)
  | askResync (i : Nat)
  | setParameter (path text : Str)
  | setConfigurationParameter (dom conf path text : Str)
  | setElementBytes (path : Str) (args : List Str)
  | createDomain (name : Str)
  | deleteDomain (name : Str)
  | deleteAllDomains
  | renameDomain (name new : Str)
  | setSequenceAwareness (name : Str) (aware : Bool)
  | createConfiguration (dom name : Str)
  | deleteConfiguration (dom name : Str)
  | renameConfiguration (dom name new : Str)
  | saveConfiguration (dom name : Str)
  | restoreConfiguration (dom name : Str)
  | addElement (dom path : Str)
  | removeElement (dom path : Str)
  | split (dom path : Str)
  | setElementSequence (dom name : Str) (paths : List Str)
  | setApplicationRule (dom name text : Str)
  | clearApplicationRule (dom name : Str)
  | handleSet (p : Pos) (v : HVal)
  | handleSetBytes (p : Pos) (bytes : List Byte)
  | setElementXml (path : Str) (doc : XElem)
  | handleSetXml (p : Pos) (doc : XElem)
  | importDomains (withSettings : Bool) (doc : Xml)
  | importDomain (overwrite withSettings : Bool) (doc : Xml)

/-- One operation (ParameterMgr.cpp:1597-1617, 1959-1979, 2009-2086, 2112-2594; for the handles
ElementHandle.cpp:175-192 with ParameterMgr.cpp:801-817, 1548-1577, which do not look at the tuning
mode). -/
def MOp.step (e : MEnv) (m : Mgr) : MOp → Out Unit × Mgr
  | .setTuningMode on => m.setTuningMode e on
  | .setValueSpace raw => (.ok (), { m with raw })
  | .setOutputRawFormat hex => (.ok (), { m with hex })
  | .setAutoSync on => m.setAutoSync e on
  | .sync => m.sync e
  | .applyConfigurations => m.applyConfigurations e
  | .setCriterion i v => m.run e (.setCriterion i v)
  | .askResync i => m.run e (.askResync i)
  | .setParameter path text => m.tuned e (.setParameter m.ctx m.autoSync path text)
  | .setConfigurationParameter dom conf path text =>
    m.run e (.setConfigurationParameter m.ctx m.autoSync dom conf path text)
  | .setElementBytes path args => m.setElementBytes e path args
  | .createDomain name => m.tuned e (.createDomain name)
  | .deleteDomain name => m.tuned e (.deleteDomain name)
  | .deleteAllDomains => m.tuned e .deleteAllDomains
  | .renameDomain name new => m.run e (.renameDomain name new)
  | .setSequenceAwareness name aware => m.tuned e (.setSequenceAwareness name aware)
  | .createConfiguration dom name => m.tuned e (.createConfiguration dom name)
  | .deleteConfiguration dom name => m.tuned e (.deleteConfiguration dom name)
  | .renameConfiguration dom name new => m.run e (.renameConfiguration dom name new)
  | .saveConfiguration dom name => m.tuned e (.saveConfiguration dom name)
  | .restoreConfiguration dom name => m.tuned e (.restoreConfiguration m.autoSync dom name)
  | .addElement dom path => m.tuned e (.addElement dom path)
  | .removeElement dom path => m.tuned e (.removeElement dom path)
  | .split dom path => m.tuned e (.split dom path)
  | .setElementSequence dom name paths => m.tuned e (.setElementSequence dom name paths)
  | .setApplicationRule dom name text => m.run e (.setApplicationRule dom name text)
  | .clearApplicationRule dom name => m.run e (.clearApplicationRule dom name)
  | .handleSet p v => m.handleSet e p v
  | .handleSetBytes p bytes => m.run e (.handleBytes m.autoSync p bytes)
  | .setElementXml path doc => m.tuned e (.setElementXml m.ctx m.autoSync path doc)
  | .handleSetXml p doc => m.run e (.handleXml m.ctx m.autoSync p doc)
  | .importDomains withSettings doc => m.tuned e (.importDomains withSettings doc)
  | .importDomain overwrite withSettings doc => m.tuned e (.importDomain overwrite withSettings doc)

/-- `accessParameterValue` for a get (ParameterMgr.cpp:1959-1979): no tuning mode needed. -/
def Mgr.getParameter (e : MEnv) (m : Mgr) (path : Str) : Out Str :=
  Elem.getText m.ctx e.env.root 0 m.st.mem.main path

/-- `accessConfigurationValue` for a get (ParameterMgr.cpp:2009-2086). -/
def Mgr.getConfigurationParameter (e : MEnv) (m : Mgr) (dom conf path : Str) : Out Str :=
  m.st.getConfigParam e.env.root m.ctx dom conf path

/-- The documents given to the imports of a history (see `DomOp.Regular`). -/
def MOp.Regular (root : Elem) : MOp → Prop
  | .importDomains withSettings doc => (DomOp.importDomains withSettings doc).Regular root
  | .importDomain overwrite withSettings doc => (DomOp.importDomain overwrite withSettings doc).Regular root
  | _ => True

/-- The states of the manager after some operations, from any state of the domains: a start
(ParameterMgr.cpp:357-425, `Mgr.start`) leaves those of the settings file.  A stop (`abort`) ends the
history. -/
inductive MReachable (e : MEnv) (criteria : List Criterion) : Mgr → Prop
  | init {st : St} : Reachable e.env criteria st →
      MReachable e criteria { Mgr.initial e.env.root criteria with st := st }
  | step {m : Mgr} {op : MOp} : MReachable e criteria m → op.Regular e.env.root → (op.step e m).1 ≠ .abort →
      MReachable e criteria (op.step e m).2

/-- No domain and a blackboard full of zeros is one of them. -/
theorem MReachable.start {e : MEnv} {criteria : List Criterion} :
    MReachable e criteria (Mgr.initial e.env.root criteria) :=
  .init .start

end PF
