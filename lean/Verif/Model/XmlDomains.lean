import Verif.Model.Domain
import Verif.Model.Structure
import Verif.Model.XmlSettings

/-!
# Model of the export and import of domains in XML

`toXml` and `fromXml` of `parameter/ConfigurableDomains.cpp`, `ConfigurableDomain.cpp`,
`DomainConfiguration.cpp`, `CompoundRule.cpp`, `SelectionCriterionRule.cpp`, `Element.cpp`, and their
callers in `ParameterMgr.cpp`.

As in `Verif.Model.XmlSettings`, a document is the tree of its elements, and its validation against a
schema (an option of the manager, off by default) is left out.  A text that is no XML document is
refused before anything changes (`mkXmlDoc`, ParameterMgr.cpp:2598-2601); it is not part of the model.

Simplifications:
* The `Description` attributes are left out.
* An element of the document in a place where the code would treat it as an object of another class
  (`static_cast`) gives `abort` when it is read, even when an error further in the document would stop
  the code before it uses the object.
* Only the first rule of a configuration is kept: the code never uses the others
  (DomainConfiguration.cpp:484-492).
-/

namespace PF

/-- An element of an XML document (`CXmlElement`, xmlserializer/XmlElement.h): tag, attributes, text
content and child elements in order. -/
inductive Xml where
  | mk (tag : Str) (attrs : List (Str × Str)) (text : Str) (children : List Xml)
deriving Repr

/-- `getType` (XmlElement.cpp:52-55). -/
def Xml.tag : Xml → Str | .mk t _ _ _ => t
/-- The attributes. -/
def Xml.attrs : Xml → List (Str × Str) | .mk _ a _ _ => a
/-- `getTextContent` (XmlElement.cpp:122-134). -/
def Xml.text : Xml → Str | .mk _ _ t _ => t
/-- The child elements, in the order of `CChildIterator` (XmlElement.cpp:242-263). -/
def Xml.children : Xml → List Xml | .mk _ _ _ cs => cs

/-- `getAttribute<std::string>` (XmlElement.cpp:84-99). -/
def Xml.attr (x : Xml) (name : Str) : Option Str :=
  (x.attrs.find? (fun a => a.1 == name)).map (·.2)

/-- `getAttribute` into a text that is empty before (XmlElement.cpp:84-99). -/
def Xml.attrText (x : Xml) (name : Str) : Str := (x.attr name).getD []

/-- `getNameAttribute` (XmlElement.cpp:115-120). -/
def Xml.nameAttr (x : Xml) : Str := x.attrText (s "Name")

/-- `getChildElement` (XmlElement.cpp:136-164): the first child of a type. -/
def Xml.child? (x : Xml) (tag : Str) : Option Xml := x.children.find? (fun y => y.tag == tag)

/-- `getChildElement` when the caller ignores the result (ConfigurableDomain.cpp:243-245, 258-260): the
iterator leaves its last child in the result.  `none`: there is no child at all, and the caller
goes on with a null pointer. -/
def Xml.childOrLast (x : Xml) (tag : Str) : Option Xml :=
  match x.child? tag with
  | some y => some y
  | none => x.children.getLast?

mutual
/-- What `serializeXmlSettings` looks at in an element (`Verif.Model.XmlSettings`). -/
def Xml.settings : Xml → XElem
  | .mk tag attrs text cs =>
    .mk tag ((Xml.mk tag attrs text cs).attrText (s "Name"))
      ((Xml.mk tag attrs text cs).attrText (s "ValueSpace")) text (Xml.settingsAll cs)
/-- The same for a list of elements. -/
def Xml.settingsAll : List Xml → List XElem
  | [] => []
  | x :: xs => x.settings :: Xml.settingsAll xs
end

mutual
/-- The element written by `serializeXmlSettings`: the `Name` attribute is always set
(ConfigurableElement.cpp:168), the `ValueSpace` attribute only for raw values
(FixedPointParameterType.cpp:81-87). -/
def XElem.xml : XElem → Xml
  | .mk tag name vs text xs =>
    .mk tag ((s "Name", name) :: if vs = [] then [] else [(s "ValueSpace", vs)]) text (XElem.xmls xs)
/-- The same for a list of elements. -/
def XElem.xmls : List XElem → List Xml
  | [] => []
  | x :: xs => x.xml :: XElem.xmls xs
end

/-! ## Rules -/

mutual
/-- `toXml` of the rules (SelectionCriterionRule.cpp:193-213, CompoundRule.cpp:141-148 with
Element.cpp:193-214).  A value without literal gives an empty text (the result of `getLiteralValue` is
ignored).  `none`: no such criterion. -/
def Rule.toXml (cs : List Criterion) : Rule → Option Xml
  | .crit i verb v =>
    match cs[i]? with
    | none => none
    | some c => some (.mk (s "SelectionCriterionRule")
        [(s "SelectionCriterion", c.name), (s "MatchesWhen", verb.text), (s "Value", (c.type.literal v).getD [])] [] [])
  | .compound all ch =>
    match Rule.toXmlAll cs ch with
    | none => none
    | some xs => some (.mk (s "CompoundRule") [(s "Type", if all then s "All" else s "Any")] [] xs)
/-- `childrenToXml` (Element.cpp:193-207). -/
def Rule.toXmlAll (cs : List Criterion) : List Rule → Option (List Xml)
  | [] => some []
  | r :: rs =>
    match r.toXml cs, Rule.toXmlAll cs rs with
    | some x, some xs => some (x :: xs)
    | _, _ => none
end

/-- `CSelectionCriterionRule::fromXml` (SelectionCriterionRule.cpp:144-190). -/
def critFromXml (cs : List Criterion) (x : Xml) : Out Rule :=
  match findCriterion cs (x.attrText (s "SelectionCriterion")) with
  | none => .err
  | some i =>
    match cs[i]? with
    | none => .err                        -- unreachable: `findCriterion` returns a valid index
    | some c =>
      match setMatchesWhen c.type (x.attrText (s "MatchesWhen")) with
      | .ok verb =>
        match c.type.numerical (x.attrText (s "Value")) with
        | none => .err
        | some v => .ok (.crit i verb v)
      | _ => .err

mutual
/-- The element made for a child of a configuration or of a rule, by its type (ParameterMgr.cpp:2805-2812
and ElementLibrary.cpp), and its `fromXml` (CompoundRule.cpp:128-138 with Element.cpp:144-190). -/
def ruleFromXml (cs : List Criterion) : Xml → Out Rule
  | .mk tag attrs text ch =>
    if tag = s "CompoundRule" then
      (rulesFromXml cs ch).bind fun rs =>
        .ok (.compound (decide ((Xml.mk tag attrs text ch).attrText (s "Type") = s "All")) rs)
    else if tag = s "SelectionCriterionRule" then critFromXml cs (.mk tag attrs text ch)
    else if tag = s "Configuration" ∨ tag = s "ConfigurableDomain" then .abort
    else .err
/-- The loop over the children (Element.cpp:153-183). -/
def rulesFromXml (cs : List Criterion) : List Xml → Out (List Rule)
  | [] => .ok []
  | x :: xs => (ruleFromXml cs x).bind fun r => (rulesFromXml cs xs).bind fun rs => .ok (r :: rs)
end

/-! ## Configurations -/

/-- `setXmlNameAttribute` (Element.cpp:224-233). -/
def nameAttrs (name : Str) : List (Str × Str) := if name = [] then [] else [(s "Name", name)]

/-- `toXml` of a configuration (Element.cpp:193-214): its name and its rule. -/
def Config.toXml (cs : List Criterion) (c : Config) : Option Xml :=
  match c.rule with
  | none => some (.mk (s "Configuration") (nameAttrs c.name) [] [])
  | some r => (r.toXml cs).map fun x => .mk (s "Configuration") (nameAttrs c.name) [] [x]

/-- `fromXml` of a configuration (Element.cpp:144-190).  A first child that is a rule on a criterion is
then used as a compound rule (DomainConfiguration.cpp:484-492). -/
def Config.fromXml (cs : List Criterion) (id : Nat) (x : Xml) : Out Config :=
  (rulesFromXml cs x.children).bind fun rs =>
    match rs with
    | [] => .ok { id, name := x.nameAttr, rule := none, areas := [] }
    | .compound all ch :: _ => .ok { id, name := x.nameAttr, rule := some (.compound all ch), areas := [] }
    | .crit .. :: _ => .abort

/-- The children of the `Configurations` element (ConfigurableDomain.cpp:236-250 with Element.cpp:153-183);
`n` is the address of the first one. -/
def configsFromXml (cs : List Criterion) : Nat → List Xml → Out (List Config)
  | _, [] => .ok []
  | n, x :: xs =>
    if x.tag = s "Configuration" then
      (Config.fromXml cs n x).bind fun c => (configsFromXml cs (n + 1) xs).bind fun r => .ok (c :: r)
    else if x.tag = s "ConfigurableDomain" ∨ x.tag = s "CompoundRule" ∨ x.tag = s "SelectionCriterionRule" then .abort
    else .err

/-- `exportOneConfigurableElementSettings` (DomainConfiguration.cpp:187-212) with `serializeXmlSettings`
(AreaConfiguration.cpp:107-130). -/
def Area.toXml (root : Elem) (ctx : Ctx) (a : Area) : Out Xml :=
  match root.at? a.elem, root.offset 0 a.elem, root.path a.elem with
  | some e, some off, some path =>
    (e.exportXml ctx off a.board off).bind fun x =>
      .ok (.mk (s "ConfigurableElement") [(s "Path", path)] [] [x.xml])
  | _, _, _ => .abort

/-- `composeSettings` of a configuration (DomainConfiguration.cpp:107-131). -/
def areasToXml (root : Elem) (ctx : Ctx) : List Area → Out (List Xml)
  | [] => .ok []
  | a :: as => (a.toXml root ctx).bind fun x => (areasToXml root ctx as).bind fun xs => .ok (x :: xs)

/-- `importOneConfigurableElementSettings` (DomainConfiguration.cpp:133-185) with `serializeXmlSettings`
(AreaConfiguration.cpp:107-130): in real value space (DomainConfiguration.cpp:176-177). -/
def Area.fromXml (root : Elem) (rd : Reader) (a : Area) (x : Xml) : Out Area :=
  match root.at? a.elem, root.offset 0 a.elem with
  | some e, some off =>
    match x.children with
    | [y] =>
      if e.kind.acceptsTag y.tag && y.nameAttr == e.name then
        match e.importXml rd false off off y.settings false a.board with
        | (.ok (), _, b) => .ok { a with board := b, valid := true }
        | (.err, _, _) => .err
        | (.abort, _, _) => .abort
      else .err
    | _ => .err
  | _, _ => .abort

/-- The loop of `parseSettings` of a configuration (DomainConfiguration.cpp:67-104).  `front` are the areas
before the insertion point; the area found is moved there. -/
def areasFromXml (root : Elem) (rd : Reader) : (front back : List Area) → List Xml → Out (List Area)
  | front, back, [] => .ok (front ++ back)
  | front, back, x :: xs =>
    match areaByPath root (x.attrText (s "Path")) (front ++ back) with
    | none => .err
    | some a =>
      (a.fromXml root rd x).bind fun a' =>
        areasFromXml root rd (front.eraseP (fun b => b.elem == a.elem) ++ [a'])
          (if front.any (fun b => b.elem == a.elem) then back else back.eraseP (fun b => b.elem == a.elem)) xs

/-! ## Domains -/

/-- `composeDomainConfigurations` (ConfigurableDomain.cpp:133-143). -/
def configsToXml (cs : List Criterion) : List Config → Out (List Xml)
  | [] => .ok []
  | c :: rest =>
    match c.toXml cs with
    | none => .abort
    | some x => (configsToXml cs rest).bind fun xs => .ok (x :: xs)

/-- `composeConfigurableElements` (ConfigurableDomain.cpp:145-168). -/
def elemsToXml (root : Elem) : List Pos → Out (List Xml)
  | [] => .ok []
  | p :: ps =>
    match root.path p with
    | none => .abort
    | some path =>
      (elemsToXml root ps).bind fun xs => .ok (.mk (s "ConfigurableElement") [(s "Path", path)] [] [] :: xs)

/-- The loop of `composeSettings` (ConfigurableDomain.cpp:183-206). -/
def settingsToXml (root : Elem) (ctx : Ctx) : List Config → Out (List Xml)
  | [] => .ok []
  | c :: rest =>
    (areasToXml root ctx c.areas).bind fun xs =>
      (settingsToXml root ctx rest).bind fun ys =>
        .ok (.mk (s "Configuration") [(s "Name", c.name)] [] xs :: ys)

/-- `toXml` of a domain (ConfigurableDomain.cpp:110-207 with Element.cpp:209-214). -/
def Domain.toXml (root : Elem) (cs : List Criterion) (ctx : Ctx) (withSettings : Bool) (d : Domain) : Out Xml :=
  (configsToXml cs d.configs).bind fun confs =>
    (elemsToXml root d.elems).bind fun els =>
      (if withSettings then (settingsToXml root ctx d.configs).bind fun xs => .ok [Xml.mk (s "Settings") [] [] xs]
        else .ok []).bind fun sets =>
        .ok (.mk (s "ConfigurableDomain")
          (nameAttrs d.name ++ [(s "SequenceAware", if d.seqAware then s "true" else s "false")]) []
          (.mk (s "Configurations") [] [] confs :: .mk (s "ConfigurableElements") [] [] els :: sets))

/-- `parseConfigurableElements` (ConfigurableDomain.cpp:258-314): no main blackboard. -/
def elemsFromXml (root : Elem) : List Xml → Domain → Attached → Out (Domain × Attached)
  | [], d, att => .ok (d, att)
  | x :: xs, d, att =>
    match root.locate (x.attrText (s "Path")) with
    | none => .err
    | some p => (d.addElem root att p none).bind fun r => elemsFromXml root xs r.1 r.2

/-- The loop of `parseSettings` of a domain (ConfigurableDomain.cpp:326-360). -/
def settingsFromXml (root : Elem) (rd : Reader) : List Xml → Domain → Out Domain
  | [], d => .ok d
  | x :: xs, d =>
    match d.findConfig x.nameAttr with
    | none => .err
    | some c =>
      (areasFromXml root rd [] c.areas x.children).bind fun as =>
        settingsFromXml root rd xs (d.setConfig { c with areas := as })

/-- The settings of the configurations in a document (ConfigurableDomain.cpp:307-326). -/
def Xml.settingsList (withSettings : Bool) (x : Xml) : List Xml :=
  if !withSettings then []
  else
    match x.child? (s "Settings") with
    | none => []
    | some y => y.children

/-- `parseSettings` of a domain (ConfigurableDomain.cpp:307-362). -/
def Domain.parseSettings (root : Elem) (rd : Reader) (withSettings : Bool) (x : Xml) (d : Domain) :
    Out Domain :=
  if !withSettings then .ok d
  else
    match x.child? (s "Settings") with
    | none => .ok d
    | some y => settingsFromXml root rd y.children d

/-- `isValid` of a configuration for an element (DomainConfiguration.cpp:365-374): `none` is the failed
assertion of `getAreaConfiguration`. -/
def Config.isValid (p : Pos) (c : Config) : Option Bool := (c.area? p).map (·.valid)

/-- `findValidDomainConfiguration` (ConfigurableDomain.cpp:983-999). -/
def findValid (p : Pos) : List Config → Option (Option Config)
  | [] => some none
  | c :: cs =>
    match c.isValid p with
    | none => none
    | some true => some (some c)
    | some false => findValid p cs

/-- `autoValidateAreas` (ConfigurableDomain.cpp:930-956). -/
def Domain.autoValidate (p : Pos) (d : Domain) : Option Domain :=
  match findValid p d.configs with
  | none => none
  | some none => some d
  | some (some v) =>
    d.mapConfigs fun c =>
      if c.id = v.id then some c
      else
        match c.isValid p with
        | none => none
        | some true => some c
        | some false => Config.validateElemAgainst v p c

/-- `autoValidateAll` (ConfigurableDomain.cpp:913-926). -/
def Domain.autoValidateAll : List Pos → Domain → Option Domain
  | [], d => some d
  | p :: ps, d =>
    match d.autoValidate p with
    | none => none
    | some d' => Domain.autoValidateAll ps d'

/-- `SequenceAware` (ConfigurableDomain.cpp:216): off when missing (ConfigurableDomain.h); `none`: not a
boolean, which throws (XmlElement.cpp:98-113). -/
def Xml.sequenceAware (x : Xml) : Option Bool :=
  match x.attr (s "SequenceAware") with
  | none => some false
  | some t => convertBool t

/-- `fromXml` of a domain (ConfigurableDomain.cpp:209-234) once `SequenceAware` is read; the automatic
validation is always required (XmlDomainImportContext.h:77).  `n` is the address of the domain; those
of its configurations follow.  The result has the next address. -/
def Domain.fromXml (root : Elem) (rd : Reader) (cs : List Criterion) (withSettings : Bool) (n : Nat)
    (att : Attached) (aware : Bool) (x : Xml) : Out (Domain × Attached × Nat) :=
  match x.childOrLast (s "Configurations"), x.childOrLast (s "ConfigurableElements") with
  | some confs, some els =>
    (configsFromXml cs (n + 1) confs.children).bind fun configs =>
      (elemsFromXml root els.children
        { Domain.new n x.nameAttr with seqAware := aware, configs := configs } att).bind fun r =>
        (r.1.parseSettings root rd withSettings x).bind fun d =>
          match d.autoValidateAll d.elems with
          | none => .abort
          | some d' => .ok (d', r.2, n + 1 + configs.length)
  | _, _ => .abort

/-- The children of the root element (Element.cpp:153-183): the exception of a wrong `SequenceAware` is
turned into an error (Element.cpp:187-190). -/
def domainsFromXml (root : Elem) (rd : Reader) (cs : List Criterion) (withSettings : Bool) :
    List Xml → Nat → Attached → Out (List Domain × Attached × Nat)
  | [], n, att => .ok ([], att, n)
  | x :: xs, n, att =>
    if x.tag = s "ConfigurableDomain" then
      match x.sequenceAware with
      | none => .err
      | some aware =>
        (Domain.fromXml root rd cs withSettings n att aware x).bind fun r =>
          (domainsFromXml root rd cs withSettings xs r.2.2 r.2.1).bind fun q =>
            .ok (r.1 :: q.1, q.2.1, q.2.2)
    else if x.tag = s "Configuration" ∨ x.tag = s "CompoundRule" ∨ x.tag = s "SelectionCriterionRule" then .abort
    else .err

/-! ## Imports and exports -/

/-- `validate` of a domain (ConfigurableDomain.cpp:880-893). -/
def Domain.validate (root : Elem) (main : Board) (d : Domain) : Option Domain :=
  d.mapConfigs (Config.validate root main)

/-- `importDomainsXml` (ParameterMgr.cpp:2538-2566) without the check of the tuning mode, with `xmlParse`
(ParameterMgr.cpp:617-650) and the checks of the root element (XmlDocSource.cpp:119-153): the domains
are destroyed first, and again if the document is refused.  The `ConfigurableDomains` element has the
name of the system class (ParameterMgr.cpp:446-447). -/
def St.importDomains (root : Elem) (rd : Reader) (withSettings : Bool) (doc : Xml) (st : St) :
    Out Unit × St :=
  let clean := st.deleteAllDomains.2
  if doc.tag ≠ s "ConfigurableDomains" then (.err, clean)
  else if root.name ≠ [] ∧ doc.attrText (s "SystemClassName") ≠ root.name then (.err, clean)
  else
    match domainsFromXml root rd st.criteria withSettings doc.children clean.nextId clean.attached with
    | .err => (.err, clean)
    | .abort => (.abort, clean)
    | .ok (ds, att, n) =>
      match mapAll (Domain.validate root st.mem.main) ds with
      | none => (.abort, clean)
      | some ds' => (.ok (), { clean with domains := ds', attached := att, nextId := n })

/-- `importSingleDomainXml` (ParameterMgr.cpp:2565-2591) without the check of the tuning mode, with
`addDomain` (ConfigurableDomains.cpp:132-152).  The document is read into a domain of its own, which
is destroyed (its elements detached) if it is refused. -/
def St.importDomain (root : Elem) (rd : Reader) (overwrite withSettings : Bool) (doc : Xml) (st : St) :
    Out Unit × St :=
  if doc.tag ≠ s "ConfigurableDomain" then (.err, st)
  else
    match doc.sequenceAware with
    | none => (.abort, st)
    | some aware =>
      match Domain.fromXml root rd st.criteria withSettings st.nextId st.attached aware doc with
      | .err => (.err, st)
      | .abort => (.abort, st)
      | .ok (d, att, n) =>
        match st.findDomain d.name with
        | none => (.ok (), { st with domains := st.domains ++ [d], attached := att, nextId := n })
        | some old =>
          if !overwrite then (.err, st)
          else (.ok (), { st with
            domains := st.domains.filter (·.id ≠ old.id) ++ [d],
            attached := att.filter (fun x => !(x.2 == old.id && old.elems.contains x.1)),
            nextId := n })

/-- The domains in a list. -/
def domainsToXml (root : Elem) (cs : List Criterion) (ctx : Ctx) (withSettings : Bool) : List Domain → Out (List Xml)
  | [] => .ok []
  | d :: ds =>
    (d.toXml root cs ctx withSettings).bind fun x =>
      (domainsToXml root cs ctx withSettings ds).bind fun xs => .ok (x :: xs)

/-- `exportDomainsXml` (ParameterMgr.cpp:2636-2646) with `toXml` (ConfigurableDomains.cpp:104-112). -/
def St.exportDomains (root : Elem) (ctx : Ctx) (withSettings : Bool) (st : St) : Out Xml :=
  (domainsToXml root st.criteria ctx withSettings st.domains).bind fun xs =>
    .ok (.mk (s "ConfigurableDomains") [(s "SystemClassName", root.name)] [] xs)

/-- `exportSingleDomainXml` (ParameterMgr.cpp:2647-2662). -/
def St.exportDomain (root : Elem) (ctx : Ctx) (withSettings : Bool) (name : Str) (st : St) : Out Xml :=
  match st.findDomain name with
  | none => .err
  | some d => d.toXml root st.criteria ctx withSettings

end PF
