import Verif.Model.XmlDomains
import Verif.Spec.Criterion
import Verif.Spec.XmlSettings
import Verif.Spec.Domain

/-!
# Specification vocabulary for domains in XML
-/

namespace PF.Spec

/-- The last of the elements that have the path. -/
def lastWith (path : Str) (xs : List Xml) : Option Xml :=
  (xs.filter fun x => x.attrText (s "Path") == path).getLast?

/-- The settings a `Settings` element gives for a configuration: those of all its elements with the name
of the configuration. -/
def settingsOf (name : Str) (xs : List Xml) : List Xml :=
  (xs.filter fun x => x.nameAttr == name).flatMap Xml.children

/-! ## The shape of documents, as in schemas/ConfigurableDomain.xsd -/

/-- An element that stands for a rule: `RuleGroup` of the schema. -/
inductive RuleShape : Xml → Prop
  | compound {x : Xml} : x.tag = s "CompoundRule" → (∀ y ∈ x.children, RuleShape y) → RuleShape x
  | crit {x : Xml} : x.tag = s "SelectionCriterionRule" → RuleShape x

/-- The element of a configuration: at most one child, which is a compound rule. -/
def ConfigShape (x : Xml) : Prop :=
  x.tag = s "Configuration" ∧ (x.children = [] ∨ ∃ y, x.children = [y] ∧ y.tag = s "CompoundRule" ∧ RuleShape y)

/-- The element of a domain: it has an element for its configurations and one for its elements, and its
`SequenceAware` attribute is a boolean or missing (`ConfigurableDomainType`).  Nothing is asked of names,
paths, criteria or settings. -/
structure DomainShape (x : Xml) : Prop where
  tag : x.tag = s "ConfigurableDomain"
  configs : ∃ y ∈ x.children, y.tag = s "Configurations"
  configShape : ∀ y ∈ x.children, y.tag = s "Configurations" → ∀ z ∈ y.children, ConfigShape z
  elems : ∃ y ∈ x.children, y.tag = s "ConfigurableElements"
  aware : ∀ t, x.attr (s "SequenceAware") = some t → ∃ b, convertBool t = some b

/-! ## What a document declares -/

/-- The element declares the rule.  `t.numerical` is the reading of the values of a criterion (C02). -/
inductive DeclaresRule (cs : List Criterion) : Xml → Rule → Prop
  | compound {x : Xml} {all : Bool} {rs : List Rule} :
      x.tag = s "CompoundRule" → (all = true ↔ x.attrText (s "Type") = s "All") → x.children.length = rs.length →
      (∀ (i : Nat) y r, x.children[i]? = some y → rs[i]? = some r → DeclaresRule cs y r) →
      DeclaresRule cs x (.compound all rs)
  | crit {x : Xml} {i : Nat} {c : Criterion} {verb : Verb} {v : BitVec 32} :
      x.tag = s "SelectionCriterionRule" → cs[i]? = some c → c.pathName = x.attrText (s "SelectionCriterion") →
      (∀ j c', j < i → cs[j]? = some c' → c'.pathName ≠ x.attrText (s "SelectionCriterion")) →
      verb.text = x.attrText (s "MatchesWhen") → (c.type.inclusive = true ∨ verb = .is ∨ verb = .isNot) →
      c.type.numerical (x.attrText (s "Value")) = some v → DeclaresRule cs x (.crit i verb v)

/-- The element declares the name and the rule of the configuration. -/
def DeclaresConfig (cs : List Criterion) (x : Xml) (c : Config) : Prop :=
  x.tag = s "Configuration" ∧ c.name = x.nameAttr ∧
  match c.rule with
  | none => x.children = []
  | some r => ∃ y, x.children.head? = some y ∧ DeclaresRule cs y r

/-- The part of a domain with the tag: the first child with the tag, or the last child if there is none. -/
def Part (x : Xml) (tag : Str) (y : Xml) : Prop :=
  (∃ pre post, x.children = pre ++ y :: post ∧ y.tag = tag ∧ ∀ z ∈ pre, z.tag ≠ tag) ∨
  ((∀ z ∈ x.children, z.tag ≠ tag) ∧ x.children.getLast? = some y)

/-- The settings that are read. -/
def settingsElems (withSettings : Bool) (x : Xml) : List Xml :=
  if withSettings = true then
    match x.children.filter (fun y => y.tag == s "Settings") with
    | [] => []
    | y :: _ => y.children
  else []

/-- The element declares the domain: name, sequence awareness, configurations with their rules, elements.
Of the elements, those below another one are dropped. -/
structure DeclaresDomain (root : Elem) (cs : List Criterion) (x : Xml) (d : Domain) : Prop where
  tag : x.tag = s "ConfigurableDomain"
  name : d.name = x.nameAttr
  aware : d.seqAware = true ↔ ∃ t, x.attr (s "SequenceAware") = some t ∧ convertBool t = some true
  configs : ∃ y, Part x (s "Configurations") y ∧ y.children.length = d.configs.length ∧
    ∀ (k : Nat) z c, y.children[k]? = some z → d.configs[k]? = some c → DeclaresConfig cs z c
  elems : ∃ y, Part x (s "ConfigurableElements") y ∧
    (∀ z ∈ y.children, ∃ p, root.locate (z.attrText (s "Path")) = some p) ∧
    ∀ p, p ∈ d.elems ↔ (∃ z ∈ y.children, root.locate (z.attrText (s "Path")) = some p) ∧
      ∀ z ∈ y.children, ∀ q, root.locate (z.attrText (s "Path")) = some q → q <+: p → q = p
  last : d.last = none

/-- The `ConfigurableElement` element gives the area of the element at `p`: the element inside has the tag
and name of that one and lists its children, and each parameter has the bits that setting it to the
text of its XML element gives, in raw value space if it is marked so. -/
def GivesSettings (root : Elem) (rd : Reader) (z : Xml) (p : Pos) (a : Area) : Prop :=
  ∃ e y, root.at? p = some e ∧ z.children = [y] ∧ y.settings.Lists e ∧
    (y.tag = e.kind.settingsTag ∨ e.kind.settingsTag = s "ParameterBlock" ∧ y.tag = s "Component") ∧
    y.nameAttr = e.name ∧ a.elem = p ∧ a.board.length = e.areaSize ∧ a.valid = true ∧
    ∃ b0 : Board, b0.length = e.areaSize ∧
    ∀ q f o, e.at? q = some f → f.kind.isParameter = true → e.offset 0 q = some o →
      ∃ w raw b1, y.settings.at? q = some w ∧
        (f.kind.hasValueSpace = true → (raw = true ↔ w.valueSpace = s "Raw")) ∧
        ((∀ q' g, e.at? q' = some g → g.kind.hasValueSpace = false) → raw = false) ∧
        setParamText rd ⟨raw, false⟩ f.kind b0 o 0 [] w.text = (.ok (), b1) ∧
        ∀ i, (f.extent o).1 ≤ i → i < (f.extent o).2 → a.board.bit i = b1.bit i

/-- What the document gives for the element with the path in the configuration with the name, if it does. -/
def givenFor (sets : List Xml) (name path : Str) : Option Xml := lastWith path (settingsOf name sets)

/-- Settings the document does not give: those of the system, or none at all. -/
def NotGiven (root : Elem) (p : Pos) (a : Area) : Option Board → Prop
  | some b => a.valid = true ∧ ∀ i, root.Owns p i → a.value root i = b.bit i
  | none => a.valid = false

/-- The settings of the domain are those of the document: an element has, in a configuration, the settings
given for it there; if none are, those of the first configuration for which some are; if there is no
such configuration, those of the system (`main`) — or, with `main = none`, none at all. -/
def DeclaresSettings (root : Elem) (rd : Reader) (main : Option Board) (sets : List Xml) (d : Domain) : Prop :=
  (∀ y ∈ sets, (∃ c ∈ d.configs, c.name = y.nameAttr) ∧
    ∀ z ∈ y.children, ∃ p ∈ d.elems, root.path p = some (z.attrText (s "Path"))) ∧
  ∀ c ∈ d.configs, ∀ p ∈ d.elems, ∀ path, root.path p = some path → ∃ a, a ∈ c.areas ∧ a.elem = p ∧
    match givenFor sets c.name path with
    | some z => GivesSettings root rd z p a
    | none =>
      match d.configs.find? (fun c' => (givenFor sets c'.name path).isSome) with
      | some c' => a ∈ c'.areas
      | none => NotGiven root p a main

/-! ## What an export and an import keep -/

/-- Rules the XML form can express: the criterion is the one its name designates, and the number is that of
one literal which reads back to it. -/
inductive Writable (cs : List Criterion) : Rule → Prop
  | crit {i : Nat} {verb : Verb} {v : BitVec 32} {c : Criterion} {l : Str} : cs[i]? = some c → c.name ≠ [] →
      (∀ j c', j < i → cs[j]? = some c' → c'.pathName ≠ c.name) →
      c.type.literal v = some l → c.type.numerical l = some v → Writable cs (.crit i verb v)
  | compound {all : Bool} {rs : List Rule} : (∀ r ∈ rs, Writable cs r) → Writable cs (.compound all rs)

/-- The two lists have the same length, and what is at the same place is alike. -/
def Alike {α β : Type} (R : α → β → Prop) (l : List α) (l' : List β) : Prop :=
  l.length = l'.length ∧ ∀ (k : Nat) a b, l[k]? = some a → l'[k]? = some b → R a b

/-- Settings of the same element, the second ones valid, in which every parameter has the same value. -/
def SameArea (root : Elem) (a a' : Area) : Prop :=
  a'.elem = a.elem ∧ a'.valid = true ∧ ∃ e, root.at? a.elem = some e ∧ a'.board.length = e.areaSize ∧
    e.SameSettings a.board 0 a'.board 0

/-- The same name and rule. -/
def SameHeading (c c' : Config) : Prop := c'.name = c.name ∧ c'.rule = c.rule

/-- The same name, the same rule and the same settings in the same order. -/
def SameConfig (root : Elem) (c c' : Config) : Prop := SameHeading c c' ∧ Alike (SameArea root) c.areas c'.areas

/-- The same name, sequence awareness, elements in the same order, and configurations alike in the same
order. -/
def SameDomain (R : Config → Config → Prop) (d d' : Domain) : Prop :=
  d'.name = d.name ∧ d'.seqAware = d.seqAware ∧ d'.elems = d.elems ∧ Alike R d.configs d'.configs

end PF.Spec
