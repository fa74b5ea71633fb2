import Verif.Model.Command
import Verif.Spec.Text
import Verif.Spec.Message

/-! # Specification of the commands: what each of them means -/

namespace PF.Spec

/-- `Means cmd args op`: the command `cmd` with the arguments `args` is a request for the operation `op`
of the manager.  Arguments beyond those that are named are ignored; the words of a value or of a rule
are put together with spaces.  `w` are the documents that texts and files contain. -/
inductive Means (w : Docs) : Str → List Str → MOp → Prop
  | tuningOn (r : List Str) : Means w (s "setTuningMode") (s "on" :: r) (.setTuningMode true)
  | tuningOff (r : List Str) : Means w (s "setTuningMode") (s "off" :: r) (.setTuningMode false)
  | raw (r : List Str) : Means w (s "setValueSpace") (s "raw" :: r) (.setValueSpace true)
  | real (r : List Str) : Means w (s "setValueSpace") (s "real" :: r) (.setValueSpace false)
  | hex (r : List Str) : Means w (s "setOutputRawFormat") (s "hex" :: r) (.setOutputRawFormat true)
  | dec (r : List Str) : Means w (s "setOutputRawFormat") (s "dec" :: r) (.setOutputRawFormat false)
  | autoSyncOn (r : List Str) : Means w (s "setAutoSync") (s "on" :: r) (.setAutoSync true)
  | autoSyncOff (r : List Str) : Means w (s "setAutoSync") (s "off" :: r) (.setAutoSync false)
  | sync (r : List Str) : Means w (s "sync") r .sync
  | createDomain (d : Str) (r : List Str) : Means w (s "createDomain") (d :: r) (.createDomain d)
  | deleteDomain (d : Str) (r : List Str) : Means w (s "deleteDomain") (d :: r) (.deleteDomain d)
  | deleteAllDomains (r : List Str) : Means w (s "deleteAllDomains") r .deleteAllDomains
  | renameDomain (d n : Str) (r : List Str) : Means w (s "renameDomain") (d :: n :: r) (.renameDomain d n)
  | aware (d : Str) (r : List Str) :
      Means w (s "setSequenceAwareness") (d :: s "true" :: r) (.setSequenceAwareness d true)
  | unaware (d : Str) (r : List Str) :
      Means w (s "setSequenceAwareness") (d :: s "false" :: r) (.setSequenceAwareness d false)
  | addElement (d p : Str) (r : List Str) : Means w (s "addElement") (d :: p :: r) (.addElement d p)
  | removeElement (d p : Str) (r : List Str) : Means w (s "removeElement") (d :: p :: r) (.removeElement d p)
  | splitDomain (d p : Str) (r : List Str) : Means w (s "splitDomain") (d :: p :: r) (.split d p)
  | createConfiguration (d c : Str) (r : List Str) :
      Means w (s "createConfiguration") (d :: c :: r) (.createConfiguration d c)
  | deleteConfiguration (d c : Str) (r : List Str) :
      Means w (s "deleteConfiguration") (d :: c :: r) (.deleteConfiguration d c)
  | renameConfiguration (d c n : Str) (r : List Str) :
      Means w (s "renameConfiguration") (d :: c :: n :: r) (.renameConfiguration d c n)
  | saveConfiguration (d c : Str) (r : List Str) :
      Means w (s "saveConfiguration") (d :: c :: r) (.saveConfiguration d c)
  | restoreConfiguration (d c : Str) (r : List Str) :
      Means w (s "restoreConfiguration") (d :: c :: r) (.restoreConfiguration d c)
  | setElementSequence (d c p : Str) (ps : List Str) :
      Means w (s "setElementSequence") (d :: c :: p :: ps) (.setElementSequence d c (p :: ps))
  | setRule (d c v : Str) (vs : List Str) :
      Means w (s "setRule") (d :: c :: v :: vs) (.setApplicationRule d c (joinWith ' ' (v :: vs)))
  | clearRule (d c : Str) (r : List Str) : Means w (s "clearRule") (d :: c :: r) (.clearApplicationRule d c)
  | setElementBytes (p b : Str) (bs : List Str) :
      Means w (s "setElementBytes") (p :: b :: bs) (.setElementBytes p (b :: bs))
  | setParameter (p v : Str) (vs : List Str) :
      Means w (s "setParameter") (p :: v :: vs) (.setParameter p (joinWith ' ' (v :: vs)))
  | setConfigurationParameter (d c p v : Str) (vs : List Str) :
      Means w (s "setConfigurationParameter") (d :: c :: p :: v :: vs)
        (.setConfigurationParameter d c p (joinWith ' ' (v :: vs)))
  | setElementXml (p t : Str) (x : Xml) (r : List Str) (h : w.text t = some x) :
      Means w (s "setElementXML") (p :: t :: r) (.setElementXml p x.settings)
  | importDomains (f : Str) (x : Xml) (r : List Str) (h : w.file f = some x) :
      Means w (s "importDomainsXML") (f :: r) (.importDomains false x)
  | importDomainsSettings (f : Str) (x : Xml) (r : List Str) (h : w.file f = some x) :
      Means w (s "importDomainsWithSettingsXML") (f :: r) (.importDomains true x)
  | importDomain (f : Str) (x : Xml) (h : w.file f = some x) :
      Means w (s "importDomainWithSettingsXML") [f] (.importDomain false true x)
  | importDomainOver (f : Str) (x : Xml) (r : List Str) (h : w.file f = some x) :
      Means w (s "importDomainWithSettingsXML") (f :: s "overwrite" :: r) (.importDomain true true x)
  | setDomains (t : Str) (x : Xml) (r : List Str) (h : w.text t = some x) :
      Means w (s "setDomainsWithSettingsXML") (t :: r) (.importDomains true x)
  | setDomain (t : Str) (x : Xml) (h : w.text t = some x) :
      Means w (s "setDomainWithSettingsXML") [t] (.importDomain false true x)
  | setDomainOver (t : Str) (x : Xml) (r : List Str) (h : w.text t = some x) :
      Means w (s "setDomainWithSettingsXML") (t :: s "overwrite" :: r) (.importDomain true true x)

/-- `Unreadable w cmd args`: the command `cmd` needs a document, and what it is given is not one. -/
inductive Unreadable (w : Docs) : Str → List Str → Prop
  | setElementXml (p t : Str) (r : List Str) (h : w.text t = none) : Unreadable w (s "setElementXML") (p :: t :: r)
  | importDomains (f : Str) (r : List Str) (h : w.file f = none) : Unreadable w (s "importDomainsXML") (f :: r)
  | importDomainsSettings (f : Str) (r : List Str) (h : w.file f = none) :
      Unreadable w (s "importDomainsWithSettingsXML") (f :: r)
  | importDomain (f : Str) (h : w.file f = none) : Unreadable w (s "importDomainWithSettingsXML") [f]
  | importDomainOver (f : Str) (r : List Str) (h : w.file f = none) :
      Unreadable w (s "importDomainWithSettingsXML") (f :: s "overwrite" :: r)
  | setDomains (t : Str) (r : List Str) (h : w.text t = none) : Unreadable w (s "setDomainsWithSettingsXML") (t :: r)
  | setDomain (t : Str) (h : w.text t = none) : Unreadable w (s "setDomainWithSettingsXML") [t]
  | setDomainOver (t : Str) (r : List Str) (h : w.text t = none) :
      Unreadable w (s "setDomainWithSettingsXML") (t :: s "overwrite" :: r)

/-- `Exports cmd args file doc`: the command asks for the document `doc` of the current state in the file. -/
inductive Exports : Str → List Str → Str → (MEnv → Mgr → Out Xml) → Prop
  | domains (f : Str) (r : List Str) : Exports (s "exportDomainsXML") (f :: r) f fun e m =>
      m.st.exportDomains e.env.root m.ctx false
  | domainsSettings (f : Str) (r : List Str) : Exports (s "exportDomainsWithSettingsXML") (f :: r) f fun e m =>
      m.st.exportDomains e.env.root m.ctx true
  | domain (d f : Str) (r : List Str) : Exports (s "exportDomainWithSettingsXML") (d :: f :: r) f fun e m =>
      m.st.exportDomain e.env.root m.ctx true d

/-- A document as the text of an answer. -/
def printed (print : Xml → Str) (x : Out Xml) : Out Str :=
  match x with
  | .ok x => .ok (print x)
  | .err => .err
  | .abort => .abort

/-- The sixteen digits. -/
def hexDigits : Str := s "0123456789abcdef"

/-- The word `CSV` in small or capital letters. -/
def csvWords : List Str :=
  [s "CSV", s "CSv", s "CsV", s "Csv", s "cSV", s "cSv", s "csV", s "csv"]

/-- The word `XML` in small or capital letters. -/
def xmlWords : List Str :=
  [s "XML", s "XMl", s "XmL", s "Xml", s "xML", s "xMl", s "xmL", s "xml"]

/-- `Reads print cmd args v`: the command asks for the value `v` of the current state; `print` writes documents. -/
inductive Reads (print : Xml → Str) : Str → List Str → (MEnv → Mgr → Out Str) → Prop
  | tuning (r : List Str) : Reads print (s "getTuningMode") r fun _ m => .ok (if m.tuning then s "on" else s "off")
  | space (r : List Str) : Reads print (s "getValueSpace") r fun _ m => .ok (if m.raw then s "raw" else s "real")
  | format (r : List Str) : Reads print (s "getOutputRawFormat") r fun _ m => .ok (if m.hex then s "hex" else s "dec")
  | autoSync (r : List Str) : Reads print (s "getAutoSync") r fun _ m => .ok (if m.autoSync then s "on" else s "off")
  | aware (d : Str) (r : List Str) : Reads print (s "getSequenceAwareness") (d :: r) fun _ m =>
      match m.st.findDomain d with
      | none => .err
      | some d => .ok (if d.seqAware then s "true" else s "false")
  | sequence (d c : Str) (r : List Str) : Reads print (s "getElementSequence") (d :: c :: r) fun e m =>
      match m.st.getElementSequence e.env.root d c with
      | none => .err
      | some t => .ok t
  | rule (d c : Str) (r : List Str) : Reads print (s "getRule") (d :: c :: r) fun _ m =>
      match m.st.getApplicationRule d c with
      | none => .err
      | some t => .ok t
  | bytes (p : Str) (r : List Str) : Reads print (s "getElementBytes") (p :: r) fun e m =>
      match e.env.root.locate p with
      | none => .err
      | some p => (e.env.root.getBytes m.st.mem.main p).bind fun bs =>
          .ok (joinWith ' ' (bs.map fun b => s "0x" ++
            [hexDigits.getD (b.toNat / 16) ' ', hexDigits.getD (b.toNat % 16) ' ']))
  | parameter (p : Str) (r : List Str) : Reads print (s "getParameter") (p :: r) fun e m => m.getParameter e p
  | configParameter (d c p : Str) (r : List Str) : Reads print (s "getConfigurationParameter") (d :: c :: p :: r) fun e m =>
      m.getConfigurationParameter e d c p
  | status (r : List Str) : Reads print (s "status") r fun e m => m.statusText e
  | criteria : Reads print (s "listCriteria") [] fun _ m => .ok (criteriaText true true m.st.criteria)
  | criteriaCsv (w : Str) (h : w ∈ csvWords) : Reads print (s "listCriteria") [w] fun _ m =>
      .ok (criteriaText true false m.st.criteria)
  | domains (r : List Str) : Reads print (s "listDomains") r fun _ m => .ok m.st.domainsText
  | dumpDomains (r : List Str) : Reads print (s "dumpDomains") r fun e m => m.st.dumpDomainsText e.env.root
  | domainElements (d : Str) (r : List Str) : Reads print (s "listDomainElements") (d :: r) fun e m =>
      m.st.domainElementsText e.env.root d
  | configurations (d : Str) (r : List Str) : Reads print (s "listConfigurations") (d :: r) fun _ m =>
      m.st.configurationsText d
  | elements (p : Str) (r : List Str) : Reads print (s "listElements") (p :: r) fun e _ => e.env.root.listText false p
  | parameters (p : Str) (r : List Str) : Reads print (s "listParameters") (p :: r) fun e _ => e.env.root.listText true p
  | dump (p : Str) (r : List Str) : Reads print (s "dumpElement") (p :: r) fun e m =>
      e.env.root.dumpText m.ctx m.st.mem.main p
  | size (p : Str) (r : List Str) : Reads print (s "getElementSize") (p :: r) fun e _ => e.env.root.sizeText p
  | belonging (p : Str) (r : List Str) : Reads print (s "listBelongingDomains") (p :: r) fun e m =>
      m.st.belongingDomainsText e.env.root p
  | associated (p : Str) (r : List Str) : Reads print (s "listAssociatedDomains") (p :: r) fun e m =>
      m.st.associatedDomainsText e.env.root p
  | associatedElements (r : List Str) : Reads print (s "listAssociatedElements") r fun e m =>
      m.st.associatedElementsText e.env.root e.addr
  | conflicting (r : List Str) : Reads print (s "listConflictingElements") r fun e m =>
      m.st.conflictingElementsText e.env.root e.addr
  | rogue (r : List Str) : Reads print (s "listRogueElements") r fun e m => .ok (e.env.root.rogueText m.st.attached)
  | criteriaXml (w : Str) (h : w ∈ xmlWords) : Reads print (s "listCriteria") [w] fun _ m =>
      .ok (print (PF.criteriaXml m.st.criteria))
  | structureXml (p : Str) (r : List Str) : Reads print (s "getElementStructureXML") (p :: r) fun e _ =>
      match (e.env.root.locate p).bind e.env.root.at? with
      | none => .err
      | some el => .ok (print el.structureXml.xml)
  | systemXml (r : List Str) : Reads print (s "getSystemClassXML") r fun e _ => .ok (print e.env.root.structureXml.xml)
  | elementXml (p : Str) (r : List Str) : Reads print (s "getElementXML") (p :: r) fun e m =>
      match e.env.root.locate p with
      | none => .err
      | some q =>
        match e.env.root.getXml m.ctx m.st.mem.main q with
        | .ok x => .ok (print x.xml)
        | .err => .err
        | .abort => .abort
  | domainsXml (r : List Str) : Reads print (s "getDomainsWithSettingsXML") r fun e m =>
      printed print (m.st.exportDomains e.env.root m.ctx true)
  | domainsXmlOld (r : List Str) : Reads print (s "getDomainsXML") r fun e m =>
      printed print (m.st.exportDomains e.env.root m.ctx true)
  | domainXml (d : Str) (r : List Str) : Reads print (s "getDomainWithSettingsXML") (d :: r) fun e m =>
      printed print (m.st.exportDomain e.env.root m.ctx true d)

/-- Every document that a session of requests imports meets what the schema asks of names (`MOp.Regular`). -/
def RegularSession (u : Unmodelled) (e : MEnv) : Host → List Request → Prop
  | _, [] => True
  | h, r :: rs =>
    (∀ op, Means (u.docs h.files) (bytesStr r.command) (r.arguments.map bytesStr) op → op.Regular e.env.root) ∧
    RegularSession u e (remoteCommand u e h r).2 rs

end PF.Spec
