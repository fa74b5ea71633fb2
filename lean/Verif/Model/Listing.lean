import Verif.Model.Manager
import Verif.Model.Mapping

/-!
# Model of the listings

What `parameter/ParameterMgr.cpp` answers when the structure, the domains and the criteria are listed:
`parameter/Element.cpp`, `parameter/ConfigurableElement.cpp`, `parameter/ConfigurableDomains.cpp`,
`parameter/ConfigurableDomain.cpp`, `parameter/SelectionCriterion.cpp`.
-/

namespace PF

/-- Texts, each one followed by an end of line. -/
def linesText (ts : List Str) : Str := ts.flatMap (· ++ ['\n'])

/-- What cannot be missing: the element or the domain at an address.  A dangling pointer is undefined. -/
def Out.orAbort {α : Type} : Option α → Out α
  | none => .abort
  | some a => .ok a

/-! ## The structure -/

/-- `CElementLocator::locate` when it is not strict (ElementLocator.cpp:41-85), and what the listings do
when no element is located (ParameterMgr.cpp:1366-1372, 1393-1399): a path without a name is the system
class. -/
def Elem.locateOrRoot (root : Elem) (path : Str) : Option Pos :=
  if path.head? ≠ some '/' then none
  else
    match tokenize ['/'] true path with
    | [] => some []
    | n :: ns => if n ≠ root.name then none else root.findDescendant ns

/-- `getQualifiedPath` (Element.cpp:526-529). -/
def Elem.qualifiedPath (root : Elem) (p : Pos) : Option Str :=
  match root.path p, root.at? p with
  | some t, some e => some (t ++ s " [" ++ e.kind.text ++ s "]")
  | _, _ => none

mutual
/-- The elements of `listQualifiedPaths` (Element.cpp:343-361). -/
def Elem.listed (dive : Bool) : Nat → Pos → Elem → List Pos
  | level, p, .mk _ _ _ cs =>
    (if !dive || cs.isEmpty then [p] else []) ++
      (if dive || level == 0 then Elem.listedAll dive (level + 1) p 0 cs else [])
/-- The loop over the children (Element.cpp:355-358). -/
def Elem.listedAll (dive : Bool) : Nat → Pos → Nat → List Elem → List Pos
  | _, _, _, [] => []
  | level, p, i, c :: cs => Elem.listed dive level (p ++ [i]) c ++ Elem.listedAll dive level p (i + 1) cs
end

/-- `listElements` and, with `dive`, `listParameters` (ParameterMgr.cpp:1353-1403). -/
def Elem.listText (root : Elem) (dive : Bool) (path : Str) : Out Str :=
  match root.locateOrRoot path with
  | none => .err
  | some p =>
    match root.at? p with
    | none => .abort
    | some e => Out.orAbort ((PF.mapAll root.qualifiedPath (e.listed dive 0 p)).map linesText)

/-- `getElementSize` (ParameterMgr.cpp:1643-1663, ConfigurableElement.cpp:510-515). -/
def Elem.sizeText (root : Elem) (path : Str) : Out Str :=
  match root.locate path with
  | none => .err
  | some p => Out.orAbort ((root.at? p).map fun e => natText e.footprint ++ s " byte(s)")

/-- `logValue` (ConfigurableElement.cpp:316-324, BaseParameter.cpp:80-86, ArrayParameter.cpp:171-175) on the
main blackboard. -/
def Elem.logValue (root : Elem) (ctx : Ctx) (b : Board) (p : Pos) (k : EKind) : Out Str :=
  if k.isParameter then
    match root.offset 0 p with
    | none => .abort
    | some off => getParamText ctx k b off 0 []
  else .ok []

/-- One line of `dumpContent` (Element.cpp:86-113). -/
def dumpLine (depth : Nat) (kind name value : Str) : Str :=
  List.replicate (4 * depth) ' ' ++ s "- " ++ kind ++ (if name ≠ [] then s ": " ++ name else []) ++
    (if value ≠ [] then s " = " ++ value else []) ++ s "\n"

mutual
/-- `dumpContent` (Element.cpp:84-121). -/
def Elem.dump (root : Elem) (ctx : Ctx) (b : Board) : Nat → Pos → Elem → Out Str
  | depth, p, .mk n k _ cs =>
    (root.logValue ctx b p k).bind fun v =>
      (Elem.dumpAll root ctx b (depth + 1) p 0 cs).bind fun t => .ok (dumpLine depth k.text n v ++ t)
/-- The loop over the children (Element.cpp:115-118). -/
def Elem.dumpAll (root : Elem) (ctx : Ctx) (b : Board) : Nat → Pos → Nat → List Elem → Out Str
  | _, _, _, [] => .ok []
  | depth, p, i, c :: cs =>
    (Elem.dump root ctx b depth (p ++ [i]) c).bind fun t =>
      (Elem.dumpAll root ctx b depth p (i + 1) cs).bind fun u => .ok (t ++ u)
end

/-- `dumpElement` (ParameterMgr.cpp:1620-1641). -/
def Elem.dumpText (root : Elem) (ctx : Ctx) (b : Board) (path : Str) : Out Str :=
  match root.locate path with
  | none => .err
  | some p =>
    match root.at? p with
    | none => .abort
    | some e => Elem.dump root ctx b 0 p e

/-! ## The domains of an element -/

/-- The name of the domain at an address. -/
def St.domainName (st : St) (id : Nat) : Option Str := (st.domains.find? (fun d => d.id == id)).map (·.name)

/-- The domains of a list (ConfigurableElement.cpp:565-593). -/
def St.domainNames (st : St) (ids : List Nat) : Out (List Str) := Out.orAbort (mapAll st.domainName ids)

/-- `listBelongingDomains` (ParameterMgr.cpp:1713-1733, ConfigurableElement.cpp:456-466). -/
def St.belongingDomainsText (st : St) (root : Elem) (path : Str) : Out Str :=
  match root.locate path with
  | none => .err
  | some p => (st.domainNames (st.attached.belonging p)).bind fun ns => .ok (linesText ns)

/-- `listAssociatedDomains` (ParameterMgr.cpp:1735-1755, ConfigurableElement.cpp:548-553). -/
def St.associatedDomainsText (st : St) (root : Elem) (path : Str) : Out Str :=
  match root.locate path with
  | none => .err
  | some p => (st.domainNames (st.attached.domainsAt p)).bind fun ns => .ok (linesText ns)

/-- `std::set<const CConfigurableElement *>::insert`. -/
def insertElem (addr : Pos → Nat) (p : Pos) : List Pos → List Pos
  | [] => [p]
  | q :: qs =>
    if addr p < addr q then p :: q :: qs
    else if p = q then q :: qs
    else q :: insertElem addr p qs

/-- `gatherAllOwnedConfigurableElements` (ConfigurableDomains.cpp:389-402, ConfigurableDomain.cpp:1019-1024). -/
def gatherElems (addr : Pos → Nat) (ds : List Domain) : List Pos :=
  ds.foldl (fun l d => d.elems.foldl (fun l p => insertElem addr p l) l) []

/-- A line of a listing of elements with their domains. -/
def St.elemLine (st : St) (root : Elem) (p : Pos) (ids : List Nat) (before after : Str) : Option Str :=
  match root.path p, mapAll st.domainName ids with
  | some t, some ns => some (t ++ before ++ joinTexts (s ", ") ns ++ after)
  | _, _ => none

/-- `listAssociatedElements` (ConfigurableDomains.cpp:318-338). -/
def St.associatedElementsText (st : St) (root : Elem) (addr : Pos → Nat) : Out Str :=
  Out.orAbort ((mapAll (fun p => st.elemLine root p (st.attached.domainsAt p) (s " [") (s "]"))
    (gatherElems addr st.domains)).map linesText)

/-- `listConflictingElements` (ConfigurableDomains.cpp:340-364). -/
def St.conflictingElementsText (st : St) (root : Elem) (addr : Pos → Nat) : Out Str :=
  Out.orAbort ((mapAll (fun p => st.elemLine root p (st.attached.belonging p) (s " contained in multiple domains: ") [])
    ((gatherElems addr st.domains).filter fun p => st.attached.belongingCount p > 1)).map linesText)

/-! ## The domains -/

/-- `listDomains` (ConfigurableDomains.cpp:366-386). -/
def St.domainsText (st : St) : Str :=
  linesText (st.domains.map fun d => d.name ++ (if d.seqAware then s " [sequence aware]" else []))

/-- `listConfigurations` (ConfigurableDomains.cpp:224-236, Element.cpp:334-341). -/
def St.configurationsText (st : St) (dom : Str) : Out Str :=
  match st.findDomain dom with
  | none => .err
  | some d => .ok (linesText (d.configs.map (·.name)))

/-- `listDomainElements` (ConfigurableDomains.cpp:285-298, ConfigurableDomain.cpp:686-697). -/
def St.domainElementsText (st : St) (root : Elem) (dom : Str) : Out Str :=
  match st.findDomain dom with
  | none => .err
  | some d => Out.orAbort ((mapAll root.path d.elems).map linesText)

/-- One line of `listLastAppliedConfigurations` (ConfigurableDomains.cpp:529-531). -/
def Domain.statusLine (cs : List Criterion) (d : Domain) : Option Str :=
  match d.lastName, d.pendingName cs with
  | some l, some p => some (d.name ++ s ": " ++ l ++ s " [" ++ p ++ s "]")
  | _, _ => none

/-- `listLastAppliedConfigurations` (ConfigurableDomains.cpp:519-533). -/
def St.lastAppliedText (st : St) : Out Str :=
  Out.orAbort ((mapAll (Domain.statusLine st.criteria) st.domains).map linesText)

mutual
/-- `dumpContent` (Element.cpp:84-121) of a rule (kinds and values: CompoundRule.cpp:41-57,
SelectionCriterionRule.cpp:48-58).  Rules have no name. -/
def Rule.dumpTree (cs : List Criterion) : Nat → Rule → Str
  | depth, .crit i v n => dumpLine depth (s "SelectionCriterionRule") [] ((Rule.crit i v n).dump cs)
  | depth, .compound all rs =>
    dumpLine depth (s "CompoundRule") [] (compoundType all) ++ Rule.dumpTreeAll cs (depth + 1) rs
/-- The loop over the children (Element.cpp:115-118). -/
def Rule.dumpTreeAll (cs : List Criterion) : Nat → List Rule → Str
  | _, [] => []
  | depth, r :: rs => Rule.dumpTree cs depth r ++ Rule.dumpTreeAll cs depth rs
end

/-- `dumpContent` (Element.cpp:84-121) of a configuration: its child is its rule, if any
(DomainConfiguration.cpp:54-57, 475-510). -/
def Config.dumpTree (cs : List Criterion) (depth : Nat) (c : Config) : Str :=
  dumpLine depth (s "Configuration") c.name [] ++
    (match c.rule with
     | none => []
     | some r => r.dumpTree cs (depth + 1))

/-- `dumpContent` (Element.cpp:84-121) of a domain (ConfigurableDomain.cpp:72-93). -/
def Domain.dumpTree (cs : List Criterion) (depth : Nat) (d : Domain) : Option Str :=
  d.lastName.map fun l =>
    dumpLine depth (s "ConfigurableDomain") d.name
      (s "{Sequence aware: " ++ (if d.seqAware then s "yes" else s "no") ++ s ", Last applied configuration: " ++ l ++ s "}") ++
      d.configs.flatMap (Config.dumpTree cs (depth + 1))

/-- `dumpDomains` (ParameterMgr.cpp:1233-1244).  The domains have the name of the system class
(ParameterMgr.cpp:446-447). -/
def St.dumpDomainsText (st : St) (root : Elem) : Out Str :=
  Out.orAbort ((mapAll (Domain.dumpTree st.criteria 1) st.domains).map fun ts =>
    dumpLine 0 (s "ConfigurableDomains") root.name [] ++ ts.flatten)

/-! ## The criteria and the status -/

/-- `appendTitle` (Utility.cpp:55-58). -/
def titleText (t : Str) : Str := s "\n" ++ t ++ s "\n" ++ List.replicate t.length '=' ++ s "\n"

/-- `getFormattedDescription` (SelectionCriterion.cpp:129-180). -/
def Criterion.description (withType human : Bool) (c : Criterion) : Str :=
  if human then
    (if withType then
      titleText (c.name ++ s ":") ++ s "Possible states (" ++
        (if c.type.inclusive then s "Inclusive" else s "Exclusive") ++ s "): " ++ c.type.listPossibleValues ++
        s "\nCurrent state"
    else c.name) ++ s " = " ++ c.type.formattedState c.state
  else
    s "Criterion name: " ++ c.name ++
      (if withType then s ", type kind: " ++ (if c.type.inclusive then s "inclusive" else s "exclusive") else []) ++
      s ", current state: " ++ c.type.formattedState c.state ++
      (if withType then s ", states: " ++ c.type.listPossibleValues else [])

/-- `listSelectionCriteria` (SelectionCriteriaDefinition.cpp:62-78) and `asString` (Utility.h:75-83). -/
def criteriaText (withType human : Bool) (cs : List Criterion) : Str :=
  joinTexts (s "\n") (cs.map (Criterion.description withType human))

/-- `listChildrenPaths` of the system class (Element.cpp:363-370). -/
def Elem.childrenPaths (root : Elem) : Option Str :=
  (PF.mapAll (fun i => root.path [i]) (List.range root.children.length)).map linesText

/-- `status` (ParameterMgr.cpp:871-925). -/
def Mgr.statusText (e : MEnv) (m : Mgr) : Out Str :=
  (Out.orAbort e.env.root.childrenPaths).bind fun subs =>
    m.st.lastAppliedText.bind fun last =>
      .ok (titleText (s "General:") ++
        s "System Class: " ++ e.env.root.name ++ s "\n" ++
        s "Tuning Mode: " ++ (if m.tuning then s "on" else s "off") ++ s "\n" ++
        s "Value Space: " ++ (if m.raw then s "raw" else s "real") ++ s "\n" ++
        s "Output Raw Format: " ++ (if m.hex then s "hex" else s "dec") ++ s "\n" ++
        s "Auto Sync: " ++ (if m.autoSync then s "on" else s "off") ++ s "\n" ++
        titleText (s "Subsystems:") ++ subs ++
        titleText (s "Last Applied [Pending] Configurations:") ++ last ++
        titleText (s "Selection Criteria:") ++ criteriaText false true m.st.criteria)

end PF
