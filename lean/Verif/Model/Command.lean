import Verif.Model.Manager
import Verif.Model.Listing
import Verif.Model.Message
import Verif.Model.StructureExport

/-!
# Model of the commands

`remote-processor/RemoteCommandHandlerTemplate.h` (table and dispatch) and the commands of
`parameter/ParameterMgr.cpp`.
-/

namespace PF

/-! ## Table and dispatch -/

/-- `CommandStatus` (RemoteCommandHandlerTemplate.h:40-46). -/
inductive CmdStatus where
  | done
  | succeeded
  | failed
  | showUsage
deriving Repr, DecidableEq

/-- `CRemoteCommandParserItem` (RemoteCommandHandlerTemplate.h:61-112).  A parser gives a status, the
result text, and the new state; no status when the program stops.  `none` is the null pointer. -/
structure CmdItem (σ : Type) where
  name : Str
  minArgs : Nat
  help : Str
  description : Str
  parser : Option (σ → List Str → Option (CmdStatus × Str) × σ)

/-- `usage` (RemoteCommandHandlerTemplate.h:77). -/
def CmdItem.usage {σ : Type} (it : CmdItem σ) : Str := it.name ++ s " " ++ it.help

/-- What is answered for a status (RemoteCommandHandlerTemplate.h:90-101). -/
def CmdStatus.reply (usage text : Str) : CmdStatus → Bool × Str
  | .done => (true, s "Done")
  | .succeeded => (true, text)
  | .showUsage => (false, usage)
  | .failed => (false, text)

/-- `parse` (RemoteCommandHandlerTemplate.h:79-104).  Calling the null pointer stops the program. -/
def CmdItem.parse {σ : Type} (it : CmdItem σ) (x : σ) (args : List Str) : Option (Bool × Str) × σ :=
  if args.length < it.minArgs then
    (some (false, s "Not enough arguments supplied\nUsage:\n" ++ it.usage), x)
  else
    match it.parser with
    | none => (none, x)
    | some f => ((f x args).1.map fun r => r.1.reply it.usage r.2, (f x args).2)

/-- `findCommandParserItem` (RemoteCommandHandlerTemplate.h:208-218). -/
def findCommand {σ : Type} (t : List (CmdItem σ)) (name : Str) : Option (CmdItem σ) := t.find? (fun it => it.name == name)

/-- `addCommandParser` (RemoteCommandHandlerTemplate.h:131-146). -/
def addCommand {σ : Type} (t : List (CmdItem σ)) (it : CmdItem σ) : Bool × List (CmdItem σ) :=
  match findCommand t it.name with
  | some _ => (false, t)
  | none => (true, t ++ [it])

/-- The command added by the constructor (RemoteCommandHandlerTemplate.h:115-120). -/
def helpItem (σ : Type) : CmdItem σ := ⟨s "help", 0, [], s "Show commands description and usage", none⟩

/-- The constructor, then `addCommandParser` for each command (ParameterMgr.cpp:2824-2837). -/
def createHandler {σ : Type} (items : List (CmdItem σ)) : List (CmdItem σ) :=
  items.foldl (fun t it => (addCommand t it).2) (addCommand [] (helpItem σ)).2

/-- `initMaxCommandUsageLength` (RemoteCommandHandlerTemplate.h:174-189).  The length is kept after the
first time; commands are only added before that. -/
def maxUsage {σ : Type} (t : List (CmdItem σ)) : Nat :=
  t.foldl (fun n it => if it.usage.length > n then it.usage.length else n) 0

/-- `helpCommandProcess` (RemoteCommandHandlerTemplate.h:191-206). -/
def helpText {σ : Type} (t : List (CmdItem σ)) : Str :=
  t.flatMap fun it =>
    it.usage ++ List.replicate (maxUsage t + 5 - it.usage.length) ' ' ++ s "=> " ++ it.description ++ s "\n"

/-- `remoteCommandProcess` (RemoteCommandHandlerTemplate.h:150-172). -/
def processCommand {σ : Type} (t : List (CmdItem σ)) (x : σ) (cmd : Str) (args : List Str) :
    Option (Bool × Str) × σ :=
  match findCommand t cmd with
  | none => (some (false, s "Command not found!\nUse \"help\" to show available commands"), x)
  | some it => if cmd = s "help" then (some (true, helpText t), x) else it.parse x args

/-! ## The commands of the manager -/

/-- The files that the process sees: what they contain. -/
abbrev Files := Str → Option Str

/-- A file after something is written into it. -/
def Files.write (fs : Files) (file text : Str) : Files := fun f => if f = file then some text else fs f

/-- What is not modelled: the texts of errors; the listings that have no model (`version`, `showProperties`,
`showMapping`) and their statuses; the reading of a text (`mkXmlDoc`, XmlDocSource.cpp:233-261; the same for texts and
files) and the writing of a document (XmlStreamDocSink.cpp:40-59) by libxml2; which files can be written.  The theorems
hold whatever they are. -/
structure Unmodelled where
  text : Str → Mgr → List Str → Str
  status : Str → Mgr → List Str → CmdStatus
  parse : Str → Option Xml
  print : Xml → Str
  writable : Str → Bool

/-- The documents in texts and in files. -/
structure Docs where
  text : Str → Option Xml
  file : Str → Option Xml

/-- The documents there are (XmlDocSource.cpp:233-261): a file may be missing or not be a document. -/
def Unmodelled.docs (u : Unmodelled) (fs : Files) : Docs := ⟨u.parse, fun f => (fs f).bind u.parse⟩

/-- The manager, and the files. -/
structure Host where
  mgr : Mgr
  files : Files

/-- What a command does with its arguments before it calls the manager: show its usage, read an
argument that does not exist (the assertion of RequestMessage.cpp:79), fail because there is no document, or an
operation. -/
inductive OpChoice where
  | usage
  | outside
  | refused
  | op (o : MOp)

/-- What a listing does with its arguments: show its usage, answer a text, or a document. -/
inductive Ask where
  | usage
  | read (f : MEnv → Mgr → Out Str)
  | shows (f : MEnv → Mgr → Out Xml)

/-- What a command does: an operation of the manager; a read; a read that looks at its arguments first; the answer of
a document; an operation on a document; the writing of a document to a file (the name of the file and the document); a
listing without a model, that changes nothing. -/
inductive Action where
  | op (f : List Str → OpChoice)
  | get (f : MEnv → Mgr → List Str → Out Str)
  | ask (f : List Str → Ask)
  | shows (f : MEnv → Mgr → List Str → Out Xml)
  | imports (f : Docs → List Str → OpChoice)
  | exports (file : List Str → Option Str) (f : MEnv → Mgr → List Str → Out Xml)
  | list

/-- An entry of `gastRemoteCommandParserItems` (ParameterMgr.cpp:146-322). -/
structure Command where
  name : Str
  minArgs : Nat
  help : Str
  description : Str
  action : Action

/-- A command on one argument (`getArgument(0)`). -/
def op1 (f : Str → MOp) : List Str → OpChoice
  | a :: _ => .op (f a)
  | _ => .outside

/-- A command on no argument. -/
def op0 (o : MOp) : List Str → OpChoice := fun _ => .op o

/-- A command on two arguments. -/
def op2 (f : Str → Str → MOp) : List Str → OpChoice
  | a :: b :: _ => .op (f a b)
  | _ => .outside

/-- A command on three arguments. -/
def op3 (f : Str → Str → Str → MOp) : List Str → OpChoice
  | a :: b :: c :: _ => .op (f a b c)
  | _ => .outside

/-- A command on one of two words (ParameterMgr.cpp:928-948, 959-979, 990-1010, 1021-1041). -/
def onOff (yes no : Str) (f : Bool → MOp) : List Str → OpChoice
  | a :: _ => if a = yes then .op (f true) else if a = no then .op (f false) else .usage
  | _ => .outside

/-- `setSequenceAwarenessCommandProcess` (ParameterMgr.cpp:1149-1171): reads the second argument,
although one is enough for the table. -/
def setSequenceAwarenessArgs : List Str → OpChoice
  | d :: a :: _ =>
    if a = s "true" then .op (.setSequenceAwareness d true)
    else if a = s "false" then .op (.setSequenceAwareness d false)
    else .usage
  | _ => .outside

/-- `packArguments` from an argument to the last one (RequestMessage.cpp:84-90). -/
def packArguments (start : Nat) (args : List Str) : Str := joinTexts (s " ") (args.drop start)

/-- A word as result. -/
def word (t : Str) : Out Str := .ok t

/-- A result that may be missing. -/
def Out.ofOption {α : Type} : Option α → Out α
  | none => .err
  | some a => .ok a

/-- `getSequenceAwarenessCommandProcess` (ParameterMgr.cpp:1173-1187; ConfigurableDomains.cpp:270-283). -/
def getSequenceAwarenessCommand (_ : MEnv) (m : Mgr) : List Str → Out Str
  | d :: _ => Out.ofOption ((m.st.findDomain d).map fun d => if d.seqAware then s "true" else s "false")
  | _ => .abort

/-- `getElementSequenceCommandProcess` (ParameterMgr.cpp:1312-1320). -/
def getElementSequenceCommand (e : MEnv) (m : Mgr) : List Str → Out Str
  | d :: c :: _ => Out.ofOption (m.st.getElementSequence e.env.root d c)
  | _ => .abort

/-- `getRuleCommandProcess` (ParameterMgr.cpp:1343-1350). -/
def getRuleCommand (_ : MEnv) (m : Mgr) : List Str → Out Str
  | d :: c :: _ => Out.ofOption (m.st.getApplicationRule d c)
  | _ => .abort

/-- Lower case of a hexadecimal digit: `std::hex` without `std::uppercase`. -/
def lowerHex (n : Nat) : Char := if n < 10 then Char.ofNat (n + 48) else Char.ofNat (n - 10 + 97)

/-- A byte (ParameterMgr.cpp:1452-1458). -/
def byteText (b : Byte) : Str := [lowerHex (b.toNat / 16), lowerHex (b.toNat % 16)]

/-- `getElementBytesCommandProcess` (ParameterMgr.cpp:1430-1468). -/
def getElementBytesCommand (e : MEnv) (m : Mgr) : List Str → Out Str
  | p :: _ =>
    match e.env.root.locate p with
    | none => .err
    | some p => (e.env.root.getBytes m.st.mem.main p).bind fun bs =>
        .ok (joinTexts (s " ") (bs.map fun b => s "0x" ++ byteText b))
  | _ => .abort

/-- `getParameterCommandProcess` (ParameterMgr.cpp:1687-1700). -/
def getParameterCommand (e : MEnv) (m : Mgr) : List Str → Out Str
  | p :: _ => m.getParameter e p
  | _ => .abort

/-- `getConfigurationParameterCommandProcess` (ParameterMgr.cpp:1781-1797). -/
def getConfigurationParameterCommand (e : MEnv) (m : Mgr) : List Str → Out Str
  | d :: c :: p :: _ => m.getConfigurationParameter e d c p
  | _ => .abort

/-- A listing of one thing (`getArgument(0)`). -/
def get1 (f : MEnv → Mgr → Str → Out Str) (e : MEnv) (m : Mgr) : List Str → Out Str
  | a :: _ => f e m a
  | _ => .abort

/-- `toupper` (ParameterMgr.cpp:1074-1076) in the C locale. -/
def upperChar (c : Char) : Char := if 'a' ≤ c ∧ c ≤ 'z' then Char.ofNat (c.toNat - 32) else c

/-- `CSelectionCriterionType::toXml` for one value (SelectionCriterionType.cpp:238-249): the literals are in the order of
the map. -/
def valuePairXml (p : Str × BitVec 32) : Xml :=
  .mk (s "ValuePair") [(s "Literal", p.1), (s "Numerical", intText p.2.toInt)] [] []

/-- `CSelectionCriterion::toXml` (SelectionCriterion.cpp:183-193, SelectionCriterionType.cpp:231-252, Element.cpp:208-213). -/
def Criterion.toXml (c : Criterion) : Xml :=
  .mk (s "SelectionCriterion") ([(s "Value", c.type.formattedState c.state),
    (s "Kind", if c.type.inclusive then s "Inclusive" else s "Exclusive")] ++ nameAttrs c.name) [] (c.type.map.map valuePairXml)

/-- `toXml` of the criteria (Element.cpp:192-213), from ParameterMgr.cpp:1084-1091; the definition of the criteria has no
name. -/
def criteriaXml (cs : List Criterion) : Xml := .mk (s "SelectionCriteria") [] [] (cs.map Criterion.toXml)

/-- `listCriteriaCommandProcess` (ParameterMgr.cpp:1058-1110). -/
def listCriteriaArgs : List Str → Ask
  | [] => .read fun _ m => .ok (criteriaText true true m.st.criteria)
  | [w] =>
    if w.map upperChar ≠ s "XML" ∧ w.map upperChar ≠ s "CSV" then .usage
    else if w.map upperChar = s "XML" then .shows fun _ m => .ok (criteriaXml m.st.criteria)
    else .read fun _ m => .ok (criteriaText true false m.st.criteria)
  | _ => .usage

mutual
/-- The element of a structure in a document. -/
def SXml.xml : SXml → Xml
  | .mk tag attrs cs => .mk tag attrs [] (SXml.xmls cs)
/-- The same for a list of elements. -/
def SXml.xmls : List SXml → List Xml
  | [] => []
  | x :: xs => x.xml :: SXml.xmls xs
end

/-- `getElementStructureXMLCommandProcess` (ParameterMgr.cpp:1406-1428). -/
def elementStructureCommand (e : MEnv) (_ : Mgr) : List Str → Out Xml
  | p :: _ =>
    match e.env.root.locate p with
    | none => .err
    | some p =>
      match e.env.root.at? p with
      | none => .abort
      | some el => .ok el.structureXml.xml
  | _ => .abort

/-- `getElementXMLCommandProcess` (ParameterMgr.cpp:1579-1595). -/
def elementXmlCommand (e : MEnv) (m : Mgr) : List Str → Out Xml
  | p :: _ =>
    match e.env.root.locate p with
    | none => .err
    | some p => (e.env.root.getXml m.ctx m.st.mem.main p).bind fun x => .ok x.xml
  | _ => .abort

/-- `exportDomainsXml` (ParameterMgr.cpp:2636-2646) in the formats of the manager (ParameterMgr.cpp:2670-2671). -/
def Mgr.exportDomains (e : MEnv) (m : Mgr) (withSettings : Bool) : Out Xml :=
  m.st.exportDomains e.env.root m.ctx withSettings

/-- `exportSingleDomainXml` (ParameterMgr.cpp:2647-2662); for the command `getArgument(0)` is the name of the domain. -/
def exportDomainCommand (e : MEnv) (m : Mgr) : List Str → Out Xml
  | d :: _ => m.st.exportDomain e.env.root m.ctx true d
  | _ => .abort

/-- The first argument. -/
def arg0 : List Str → Option Str
  | a :: _ => some a
  | _ => none

/-- The second argument. -/
def arg1 : List Str → Option Str
  | _ :: b :: _ => some b
  | _ => none

/-- An operation on a document that may not exist: `mkXmlDoc` before anything else that can change something
(ParameterMgr.cpp:1558-1561, 2609-2612).  Without document the command fails, as it does when the tuning mode is off. -/
def onDoc (doc : Option Xml) (f : Xml → MOp) : OpChoice :=
  match doc with
  | none => .refused
  | some x => .op (f x)

/-- `setElementXMLCommandProcess` (ParameterMgr.cpp:1597-1617). -/
def setElementXmlArgs (w : Docs) : List Str → OpChoice
  | p :: t :: _ => onDoc (w.text t) fun x => .setElementXml p x.settings
  | _ => .outside

/-- `importDomainsXMLCommandProcess`, `importDomainsWithSettingsXMLCommandProcess` (ParameterMgr.cpp:1832-1838, 1861-1868) and
`setDomainsWithSettingsXMLCommandProcess` (ParameterMgr.cpp:1915-1921). -/
def importDomainsArgs (source : Docs → Str → Option Xml) (withSettings : Bool) (w : Docs) : List Str → OpChoice
  | a :: _ => onDoc (source w a) (.importDomains withSettings)
  | _ => .outside

/-- `importDomainWithSettingsXMLCommandProcess` (ParameterMgr.cpp:1870-1891) and `setDomainWithSettingsXMLCommandProcess`
(ParameterMgr.cpp:1920-1939). -/
def importDomainArgs (source : Docs → Str → Option Xml) (w : Docs) : List Str → OpChoice
  | [a] => onDoc (source w a) (.importDomain false true)
  | a :: b :: _ => if b = s "overwrite" then onDoc (source w a) (.importDomain true true) else .usage
  | _ => .outside

/-- `gastRemoteCommandParserItems` (ParameterMgr.cpp:146-322) with the functions it names
(ParameterMgr.cpp:861-1955).  -/
def commandTable : List Command := [
  ⟨s "version", 0, s "",
    s "Show version", .list⟩,
  ⟨s "status", 0, s "",
    s "Show current status", .get (fun e m _ => m.statusText e)⟩,
  ⟨s "setTuningMode", 1, s "on|off*",
    s "Turn on or off Tuning Mode", .op (onOff (s "on") (s "off") .setTuningMode)⟩,
  ⟨s "getTuningMode", 0, s "",
    s "Show Tuning Mode", .get (fun _ m _ => word (if m.tuning then s "on" else s "off"))⟩,
  ⟨s "setValueSpace", 1, s "raw|real*",
    s "Assigns Value Space used for parameter value interpretation", .op (onOff (s "raw") (s "real") .setValueSpace)⟩,
  ⟨s "getValueSpace", 0, s "",
    s "Show Value Space", .get (fun _ m _ => word (if m.raw then s "raw" else s "real"))⟩,
  ⟨s "setOutputRawFormat", 1, s "dec*|hex",
    s "Assigns format used to output parameter values when in raw Value Space", .op (onOff (s "hex") (s "dec") .setOutputRawFormat)⟩,
  ⟨s "getOutputRawFormat", 0, s "",
    s "Show Output Raw Format", .get (fun _ m _ => word (if m.hex then s "hex" else s "dec"))⟩,
  ⟨s "setAutoSync", 1, s "on*|off",
    s "Turn on or off automatic synchronization to hardware while in Tuning Mode", .op (onOff (s "on") (s "off") .setAutoSync)⟩,
  ⟨s "getAutoSync", 0, s "",
    s "Show Auto Sync state", .get (fun _ m _ => word (if m.autoSync then s "on" else s "off"))⟩,
  ⟨s "sync", 0, s "",
    s "Synchronize current settings to hardware while in Tuning Mode and Auto Sync off", .op (op0 .sync)⟩,
  ⟨s "listCriteria", 0, s "[CSV|XML]",
    s "List selection criteria", .ask listCriteriaArgs⟩,
  ⟨s "listDomains", 0, s "",
    s "List configurable domains", .get (fun _ m _ => .ok m.st.domainsText)⟩,
  ⟨s "dumpDomains", 0, s "",
    s "Show all domains and configurations, including applicability conditions", .get (fun e m _ => m.st.dumpDomainsText e.env.root)⟩,
  ⟨s "createDomain", 1, s "<domain>",
    s "Create new configurable domain", .op (op1 .createDomain)⟩,
  ⟨s "deleteDomain", 1, s "<domain>",
    s "Delete configurable domain", .op (op1 .deleteDomain)⟩,
  ⟨s "deleteAllDomains", 0, s "",
    s "Delete all configurable domains", .op (op0 .deleteAllDomains)⟩,
  ⟨s "renameDomain", 2, s "<domain> <new name>",
    s "Rename configurable domain", .op (op2 .renameDomain)⟩,
  ⟨s "setSequenceAwareness", 1, s "<domain> true|false*",
    s "Set configurable domain sequence awareness", .op setSequenceAwarenessArgs⟩,
  ⟨s "getSequenceAwareness", 1, s "<domain>",
    s "Get configurable domain sequence awareness", .get getSequenceAwarenessCommand⟩,
  ⟨s "listDomainElements", 1, s "<domain>",
    s "List elements associated to configurable domain", .get (get1 fun e m d => m.st.domainElementsText e.env.root d)⟩,
  ⟨s "addElement", 2, s "<domain> <elem path>",
    s "Associate element at given path to configurable domain", .op (op2 .addElement)⟩,
  ⟨s "removeElement", 2, s "<domain> <elem path>",
    s "Dissociate element at given path from configurable domain", .op (op2 .removeElement)⟩,
  ⟨s "splitDomain", 2, s "<domain> <elem path>",
    s "Split configurable domain at given associated element path", .op (op2 .split)⟩,
  ⟨s "listConfigurations", 1, s "<domain>",
    s "List domain configurations", .get (get1 fun _ m d => m.st.configurationsText d)⟩,
  ⟨s "createConfiguration", 2, s "<domain> <configuration>",
    s "Create new domain configuration", .op (op2 .createConfiguration)⟩,
  ⟨s "deleteConfiguration", 2, s "<domain> <configuration>",
    s "Delete domain configuration", .op (op2 .deleteConfiguration)⟩,
  ⟨s "renameConfiguration", 3, s "<domain> <configuration> <new name>",
    s "Rename domain configuration", .op (op3 .renameConfiguration)⟩,
  ⟨s "saveConfiguration", 2, s "<domain> <configuration>",
    s "Save current settings into configuration", .op (op2 .saveConfiguration)⟩,
  ⟨s "restoreConfiguration", 2, s "<domain> <configuration>",
    s "Restore current settings from configuration", .op (op2 .restoreConfiguration)⟩,
  ⟨s "setElementSequence", 3, s "<domain> <configuration> <elem path list>",
    s "Set element application order for configuration", .op (fun as => op2 (fun d c => .setElementSequence d c (as.drop 2)) as)⟩,
  ⟨s "getElementSequence", 2, s "<domain> <configuration>",
    s "Get element application order for configuration", .get getElementSequenceCommand⟩,
  ⟨s "setRule", 3, s "<domain> <configuration> <rule>",
    s "Set configuration application rule", .op (fun as => op2 (fun d c => .setApplicationRule d c (packArguments 2 as)) as)⟩,
  ⟨s "clearRule", 2, s "<domain> <configuration>",
    s "Clear configuration application rule", .op (op2 .clearApplicationRule)⟩,
  ⟨s "getRule", 2, s "<domain> <configuration>",
    s "Get configuration application rule", .get getRuleCommand⟩,
  ⟨s "listElements", 1, s "<elem path>|/",
    s "List elements under element at given path or root", .get (get1 fun e _ p => e.env.root.listText false p)⟩,
  ⟨s "listParameters", 1, s "<elem path>|/",
    s "List parameters under element at given path or root", .get (get1 fun e _ p => e.env.root.listText true p)⟩,
  ⟨s "getElementStructureXML", 1, s "<elem path>",
    s "Get structure of element at given path in XML format", .shows elementStructureCommand⟩,
  ⟨s "getElementBytes", 1, s "<elem path>",
    s "Get settings of element at given path in Byte Array format", .get getElementBytesCommand⟩,
  ⟨s "setElementBytes", 2, s "<elem path> <values>",
    s "Set settings of element at given path in Byte Array format", .op (fun as => op1 (fun p => .setElementBytes p (as.drop 1)) as)⟩,
  ⟨s "getElementXML", 1, s "<elem path>",
    s "Get settings of element at given path in XML format", .shows elementXmlCommand⟩,
  ⟨s "setElementXML", 2, s "<elem path> <values>",
    s "Set settings of element at given path in XML format", .imports setElementXmlArgs⟩,
  ⟨s "dumpElement", 1, s "<elem path>",
    s "Dump structure and content of element at given path", .get (get1 fun e m p => e.env.root.dumpText m.ctx m.st.mem.main p)⟩,
  ⟨s "getElementSize", 1, s "<elem path>",
    s "Show size of element at given path", .get (get1 fun e _ p => e.env.root.sizeText p)⟩,
  ⟨s "showProperties", 1, s "<elem path>",
    s "Show properties of element at given path", .list⟩,
  ⟨s "getParameter", 1, s "<param path>",
    s "Get value for parameter at given path", .get getParameterCommand⟩,
  ⟨s "setParameter", 2, s "<param path> <value>",
    s "Set value for parameter at given path", .op (fun as => op1 (fun p => .setParameter p (packArguments 1 as)) as)⟩,
  ⟨s "listBelongingDomains", 1, s "<elem path>",
    s "List domain(s) element at given path belongs to", .get (get1 fun e m p => m.st.belongingDomainsText e.env.root p)⟩,
  ⟨s "listAssociatedDomains", 1, s "<elem path>",
    s "List domain(s) element at given path is associated to", .get (get1 fun e m p => m.st.associatedDomainsText e.env.root p)⟩,
  ⟨s "getConfigurationParameter", 3, s "<domain> <configuration> <param path>",
    s "Get value for parameter at given path from configuration", .get getConfigurationParameterCommand⟩,
  ⟨s "setConfigurationParameter", 4, s "<domain> <configuration> <param path> <value>",
    s "Set value for parameter at given path to configuration", .op (fun as => op3 (fun d c p => .setConfigurationParameter d c p (packArguments 3 as)) as)⟩,
  ⟨s "showMapping", 1, s "<elem path>",
    s "Show mapping for an element at given path", .list⟩,
  ⟨s "listAssociatedElements", 0, s "",
    s "List element sub-trees associated to at least one configurable domain", .get (fun e m _ => m.st.associatedElementsText e.env.root e.addr)⟩,
  ⟨s "listConflictingElements", 0, s "",
    s "List element sub-trees contained in more than one configurable domain", .get (fun e m _ => m.st.conflictingElementsText e.env.root e.addr)⟩,
  ⟨s "listRogueElements", 0, s "",
    s "List element sub-trees owned by no configurable domain", .get (fun e m _ => .ok (e.env.root.rogueText m.st.attached))⟩,
  ⟨s "exportDomainsXML", 1, s "<file path> ",
    s "Export domains to an XML file (provide an absolute path or relativeto the client's working directory)", .exports arg0 (fun e m _ => m.exportDomains e false)⟩,
  ⟨s "importDomainsXML", 1, s "<file path>",
    s "Import domains from an XML file (provide an absolute path or relativeto the client's working directory)", .imports (importDomainsArgs Docs.file false)⟩,
  ⟨s "exportDomainsWithSettingsXML", 1, s "<file path> ",
    s "Export domains including settings to XML file (provide an absolute path or relativeto the client's working directory)", .exports arg0 (fun e m _ => m.exportDomains e true)⟩,
  ⟨s "exportDomainWithSettingsXML", 2, s "<domain> <file path> ",
    s "Export a single given domain including settings to XML file (provide an absolute path or relative to the client's working directory)", .exports arg1 exportDomainCommand⟩,
  ⟨s "importDomainsWithSettingsXML", 1, s "<file path>",
    s "Import domains including settings from XML file (provide an absolute path or relativeto the client's working directory)", .imports (importDomainsArgs Docs.file true)⟩,
  ⟨s "importDomainWithSettingsXML", 1, s "<file path> [overwrite]",
    s "Import a single domain including settings from XML file. Does not overwrite an existing domain unless 'overwrite' is passed as second argument. Provide an absolute path or relative to the client's working directory)", .imports (importDomainArgs Docs.file)⟩,
  ⟨s "getDomainsWithSettingsXML", 0, s "",
    s "Print domains including settings as XML", .shows (fun e m _ => m.exportDomains e true)⟩,
  ⟨s "getDomainWithSettingsXML", 1, s "<domain>",
    s "Print the given domain including settings as XML", .shows exportDomainCommand⟩,
  ⟨s "setDomainsWithSettingsXML", 1, s "<xml configurable domains>",
    s "Import domains including settings from XML string", .imports (importDomainsArgs Docs.text true)⟩,
  ⟨s "setDomainWithSettingsXML", 1, s "<xml configurable domain> [overwrite]",
    s "Import domains including settings from XML string. Does not overwrite an existing domain unless 'overwrite' is passed as second argument", .imports (importDomainArgs Docs.text)⟩,
  ⟨s "getSystemClassXML", 0, s "",
    s "Print parameter structure as XML", .shows (fun e _ _ => .ok e.env.root.structureXml.xml)⟩,
  ⟨s "getDomainsXML", 0, s "",
    s "DEPRECATED COMMAND, please use getDomainsWithSettingsXML", .shows (fun e m _ => m.exportDomains e true)⟩]

/-- An operation answers `Done` or an error (ParameterMgr.cpp:861-1955). -/
def Unmodelled.perform (u : Unmodelled) (e : MEnv) (name : Str) (h : Host) (args : List Str) :
    OpChoice → Option (CmdStatus × Str) × Host
  | .usage => (some (.showUsage, []), h)
  | .outside => (none, h)
  | .refused => (some (.failed, u.text name h.mgr args), h)
  | .op o =>
    (match (o.step e h.mgr).1 with
      | .ok () => some (.done, [])
      | .err => some (.failed, u.text name h.mgr args)
      | .abort => none, { h with mgr := (o.step e h.mgr).2 })

/-- A read answers what it reads or an error. -/
def Unmodelled.answer (u : Unmodelled) (name : Str) (h : Host) (args : List Str) : Out Str → Option (CmdStatus × Str)
  | .ok t => some (.succeeded, t)
  | .err => some (.failed, u.text name h.mgr args)
  | .abort => none

/-- `wrapLegacyXmlExportToFile` (ParameterMgr.cpp:2677-2696).  An error here is an unknown
domain, found before the file is opened (ParameterMgr.cpp:2657-2661): in a reachable state the document itself is always
made. -/
def Unmodelled.export (u : Unmodelled) (name : Str) (h : Host) (args : List Str) (file : Str) :
    Out Xml → Option (CmdStatus × Str) × Host
  | .ok x =>
    if u.writable file then (some (.done, []), { h with files := h.files.write file (u.print x) })
    else (some (.failed, u.text name h.mgr args), h)
  | .err => (some (.failed, u.text name h.mgr args), h)
  | .abort => (none, h)

/-- A command as an entry of the handler. -/
def Command.item (u : Unmodelled) (e : MEnv) (c : Command) : CmdItem Host :=
  ⟨c.name, c.minArgs, c.help, c.description, some fun h args =>
    match c.action with
    | .op f => u.perform e c.name h args (f args)
    | .imports f => u.perform e c.name h args (f (u.docs h.files) args)
    | .get f => (u.answer c.name h args (f e h.mgr args), h)
    | .shows f => (u.answer c.name h args ((f e h.mgr args).bind fun x => .ok (u.print x)), h)
    | .ask f =>
      match f args with
      | .usage => (some (.showUsage, []), h)
      | .read g => (u.answer c.name h args (g e h.mgr), h)
      | .shows g => (u.answer c.name h args ((g e h.mgr).bind fun x => .ok (u.print x)), h)
    | .exports file f =>
      match file args with
      | none => (none, h)
      | some file => u.export c.name h args file (f e h.mgr args)
    | .list => (some (u.status c.name h.mgr args, u.text c.name h.mgr args), h)⟩

/-- The handler of the manager: `createCommandHandler` (ParameterMgr.cpp:2824-2837). -/
def mgrHandler (u : Unmodelled) (e : MEnv) : List (CmdItem Host) := createHandler (commandTable.map (Command.item u e))

/-- `CommandHandlerWrapper::process` (CommandHandlerWrapper.cpp:39-50), the local way to run a command. -/
def runCommand (u : Unmodelled) (e : MEnv) (h : Host) (cmd : Str) (args : List Str) : Option (Bool × Str) × Host :=
  processCommand (mgrHandler u e) h cmd (args.map fun a => bytesStr (trim (strBytes a)))

/-- A remote request (RemoteProcessorServer.cpp:140-158): texts are bytes on the connection. -/
def remoteCommand (u : Unmodelled) (e : MEnv) (h : Host) (r : Request) : Option Answer × Host :=
  ((processCommand (mgrHandler u e) h (bytesStr r.command) (r.arguments.map bytesStr)).1.map fun a =>
      ⟨a.1, strBytes a.2⟩,
    (processCommand (mgrHandler u e) h (bytesStr r.command) (r.arguments.map bytesStr)).2)

end PF
