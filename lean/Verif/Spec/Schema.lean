import Verif.Model.XmlDomains
import Verif.Spec.XmlDomains

/-!
# The schemas of domains

`schemas/ConfigurableDomains.xsd`, `ConfigurableDomain.xsd` and `ParameterSettings.xsd`, type by type.  Names are those of the
schemas.  White space around names (`xs:NMTOKEN`) is not accepted here: this makes the predicates stronger.
-/

namespace PF
namespace Spec

/-! ## Texts -/

/-- Regular expressions. -/
inductive Rx where
  | eps
  | set (p : Char → Bool)
  | seq (a b : Rx)
  | alt (a b : Rx)
  | star (a : Rx)

/-- The text matches the expression. -/
inductive Rx.Matches : Rx → Str → Prop
  | eps : Matches .eps []
  | set {p : Char → Bool} {c : Char} : p c = true → Matches (.set p) [c]
  | seq {a b : Rx} {t u : Str} : Matches a t → Matches b u → Matches (.seq a b) (t ++ u)
  | left {a b : Rx} {t : Str} : Matches a t → Matches (.alt a b) t
  | right {a b : Rx} {t : Str} : Matches b t → Matches (.alt a b) t
  | nil {a : Rx} : Matches (.star a) []
  | more {a : Rx} {t u : Str} : Matches a t → Matches (.star a) u → Matches (.star a) (t ++ u)

namespace Rx

/-- `a+` -/
def plus (a : Rx) : Rx := .seq a (.star a)
/-- `a?` -/
def opt (a : Rx) : Rx := .alt a .eps
/-- One of the characters. -/
def oneOf (cs : List Char) : Rx := .set fun c => decide (c ∈ cs)
/-- The text itself. -/
def lit : Str → Rx
  | [] => .eps
  | c :: cs => .seq (oneOf [c]) (lit cs)
/-- `\s` -/
def space : Rx := oneOf [' ', '\t', '\n', '\r']
/-- `[0-9]` -/
def digit : Rx := .set fun c => decide ('0' ≤ c ∧ c ≤ '9')
/-- `[1-9]` -/
def positive : Rx := .set fun c => decide ('1' ≤ c ∧ c ≤ '9')
/-- `[0-9a-fA-F]` -/
def hexDigit : Rx := .set fun c => decide ('0' ≤ c ∧ c ≤ '9' ∨ 'a' ≤ c ∧ c ≤ 'f' ∨ 'A' ≤ c ∧ c ≤ 'F')
/-- `[+-]?` -/
def sign : Rx := opt (oneOf ['+', '-'])
/-- `a(\s+a)*` -/
def spacedList (a : Rx) : Rx := .seq a (.star (.seq (plus space) a))
/-- `0|([+-]?[1-9][0-9]*)` -/
def integer : Rx := .alt (lit ['0']) (.seq sign (.seq positive (.star digit)))
/-- `0x[0-9a-fA-F]+` -/
def hexadecimal : Rx := .seq (lit ['0', 'x']) (plus hexDigit)
/-- `\.[0-9]+` -/
def fraction : Rx := .seq (lit ['.']) (plus digit)
/-- `(0|[+-]?0\.[0-9]+|(([+-]?[1-9][0-9]*)(\.[0-9]+)?))([Ee][+-]?[0-9]+)?` -/
def point : Rx :=
  .seq (.alt (lit ['0']) (.alt (.seq sign (.seq (lit ['0']) fraction))
      (.seq (.seq sign (.seq positive (.star digit))) (opt fraction))))
    (opt (.seq (oneOf ['E', 'e']) (.seq sign (plus digit))))

end Rx

/-- The contents of a `BooleanParameterType` (ParameterSettings.xsd:17-26). -/
def BooleanContent (t : Str) : Prop :=
  (Rx.plus (.seq (Rx.oneOf ['0', '1']) (.star Rx.space))).Matches t ∨
  (Rx.plus (.seq (.alt (Rx.lit ['0', 'x', '0']) (Rx.lit ['0', 'x', '1'])) (.star Rx.space))).Matches t

/-- The contents of an `IntegerParameterType` (ParameterSettings.xsd:27-35). -/
def IntegerContent (t : Str) : Prop := (Rx.spacedList Rx.integer).Matches t ∨ (Rx.spacedList Rx.hexadecimal).Matches t

/-- The contents of a `PointParameterType` (ParameterSettings.xsd:43-50). -/
def PointContent (t : Str) : Prop := (Rx.spacedList Rx.point).Matches t ∨ (Rx.spacedList Rx.hexadecimal).Matches t

/-- Characters of names, as in XML 1.0. -/
def nameStartRanges : List (Nat × Nat) :=
  [(0x41, 0x5A), (0x5F, 0x5F), (0x61, 0x7A), (0xC0, 0xD6), (0xD8, 0xF6), (0xF8, 0x2FF), (0x370, 0x37D), (0x37F, 0x1FFF),
   (0x200C, 0x200D), (0x2070, 0x218F), (0x2C00, 0x2FEF), (0x3001, 0xD7FF), (0xF900, 0xFDCF), (0xFDF0, 0xFFFD),
   (0x10000, 0xEFFFF)]

/-- A character of one of the ranges. -/
def inRanges (rs : List (Nat × Nat)) (c : Char) : Bool := rs.any fun r => r.1 ≤ c.toNat && c.toNat ≤ r.2

/-- A character a name begins with, the colon excepted. -/
def nameStart (c : Char) : Bool := inRanges nameStartRanges c

/-- A character of a name, the colon excepted. -/
def nameChar (c : Char) : Bool :=
  nameStart c || inRanges [(0x2D, 0x2E), (0x30, 0x39), (0xB7, 0xB7), (0x300, 0x36F), (0x203F, 0x2040)] c

/-- `xs:NCName` -/
def NCName (t : Str) : Prop := ∃ c cs, t = c :: cs ∧ nameStart c = true ∧ ∀ d ∈ cs, nameChar d = true

/-- `xs:NMTOKEN` -/
def NMToken (t : Str) : Prop := t ≠ [] ∧ ∀ c ∈ t, nameChar c = true ∨ c = ':'

/-- `xs:boolean` -/
def XsBoolean (t : Str) : Prop := t = s "true" ∨ t = s "false" ∨ t = s "1" ∨ t = s "0"

/-- The pattern `/.*[^/]` of paths; `.` is no line end. -/
def PathPattern (t : Str) : Prop :=
  (Rx.seq (Rx.lit ['/']) (.seq (.star (.set fun c => decide (c ≠ '\n' ∧ c ≠ '\r'))) (.set fun c => decide (c ≠ '/')))).Matches t

/-! ## Elements -/

/-- The attributes are among these, each at most once. -/
def OnlyAttrs (x : Xml) (names : List Str) : Prop := (x.attrs.map Prod.fst).Nodup ∧ ∀ a ∈ x.attrs, a.1 ∈ names

/-- A required attribute. -/
def Required (x : Xml) (name : Str) (P : Str → Prop) : Prop := ∃ t, x.attr name = some t ∧ P t

/-- An optional attribute. -/
def Optional (x : Xml) (name : Str) (P : Str → Prop) : Prop := ∀ t, x.attr name = some t → P t

/-- An element of one of the simple types, which has a name, and nothing inside but a text. -/
structure SimpleElement (tag : Str) (content : Str → Prop) (valueSpace : Bool) (x : Xml) : Prop where
  tag : x.tag = tag
  attrs : OnlyAttrs x (s "Name" :: if valueSpace = true then [s "ValueSpace"] else [])
  name : Required x (s "Name") NMToken
  space : Optional x (s "ValueSpace") fun t => t = s "Raw" ∨ t = s "Real"
  content : content x.text
  children : x.children = []

/-- `IntegerParameterType` for bit parameters. -/
def BitElement : Xml → Prop := SimpleElement (s "BitParameter") IntegerContent false

/-- No two of the elements have the same name (`xs:unique`: those without name do not count). -/
def UniqueNames (xs : List Xml) : Prop := (xs.filterMap fun x => x.attr (s "Name")).Nodup

/-- `ParameterBlockGroup` (ParameterSettings.xsd:63-85). -/
inductive ParameterElement : Xml → Prop
  | bool {x : Xml} : SimpleElement (s "BooleanParameter") BooleanContent false x → ParameterElement x
  | int {x : Xml} : SimpleElement (s "IntegerParameter") IntegerContent false x → ParameterElement x
  | enum {x : Xml} : SimpleElement (s "EnumParameter") (fun _ => True) false x → ParameterElement x
  | fixed {x : Xml} : SimpleElement (s "FixedPointParameter") PointContent true x → ParameterElement x
  | float {x : Xml} : SimpleElement (s "FloatingPointParameter") PointContent true x → ParameterElement x
  | bits {x : Xml} : x.tag = s "BitParameterBlock" → OnlyAttrs x [s "Name"] → Required x (s "Name") NMToken → x.text = [] →
      x.children ≠ [] → (∀ y ∈ x.children, BitElement y) → UniqueNames x.children → ParameterElement x
  | string {x : Xml} : SimpleElement (s "StringParameter") (fun _ => True) false x → ParameterElement x
  | component {x : Xml} : x.tag = s "Component" → OnlyAttrs x [s "Name"] → Required x (s "Name") NMToken → x.text = [] →
      x.children ≠ [] → (∀ y ∈ x.children, ParameterElement y) → ParameterElement x
  | block {x : Xml} : x.tag = s "ParameterBlock" → OnlyAttrs x [s "Name"] → Required x (s "Name") NMToken → x.text = [] →
      x.children ≠ [] → (∀ y ∈ x.children, ParameterElement y) → UniqueNames x.children → ParameterElement x

/-- `RuleGroup` (ConfigurableDomain.xsd:4-37). -/
inductive RuleElement : Xml → Prop
  | compound {x : Xml} : x.tag = s "CompoundRule" → OnlyAttrs x [s "Type"] →
      Optional x (s "Type") (fun t => t = s "Any" ∨ t = s "All") → x.text = [] → (∀ y ∈ x.children, RuleElement y) → RuleElement x
  | crit {x : Xml} : x.tag = s "SelectionCriterionRule" → OnlyAttrs x [s "SelectionCriterion", s "MatchesWhen", s "Value"] →
      Required x (s "SelectionCriterion") NMToken →
      Required x (s "MatchesWhen") (fun t => t = s "Is" ∨ t = s "IsNot" ∨ t = s "Includes" ∨ t = s "Excludes") →
      Required x (s "Value") (fun _ => True) → x.text = [] → x.children = [] → RuleElement x

/-- An element of `ConfigurationsType` (ConfigurableDomain.xsd:38-49). -/
structure ConfigurationElement (x : Xml) : Prop where
  tag : x.tag = s "Configuration"
  attrs : OnlyAttrs x [s "Name"]
  name : Required x (s "Name") NCName
  text : x.text = []
  rule : x.children = [] ∨ ∃ y, x.children = [y] ∧ y.tag = s "CompoundRule" ∧ RuleElement y

/-- An element of `ConfigurableElementsType` (ConfigurableDomain.xsd:64-78). -/
structure PathElement (x : Xml) : Prop where
  tag : x.tag = s "ConfigurableElement"
  attrs : OnlyAttrs x [s "Path"]
  path : Required x (s "Path") PathPattern
  text : x.text = []
  children : x.children = []

/-- `ConfigurableElementSettingsType` (ConfigurableDomain.xsd:79-91). -/
structure SettingsElement (x : Xml) : Prop where
  tag : x.tag = s "ConfigurableElement"
  attrs : OnlyAttrs x [s "Path"]
  path : Required x (s "Path") PathPattern
  text : x.text = []
  child : ∃ y, x.children = [y] ∧ (BitElement y ∨ ParameterElement y)

/-- An element of `SettingsType` (ConfigurableDomain.xsd:92-107). -/
structure ConfigurationSettings (x : Xml) : Prop where
  tag : x.tag = s "Configuration"
  attrs : OnlyAttrs x [s "Name"]
  name : Required x (s "Name") NCName
  text : x.text = []
  children : ∀ y ∈ x.children, SettingsElement y
  unique : (x.children.filterMap fun y => y.attr (s "Path")).Nodup

/-- An element with nothing but children. -/
def Wrapper (tag : Str) (x : Xml) : Prop := x.tag = tag ∧ x.attrs = [] ∧ x.text = []

/-- `ConfigurableDomainType` (ConfigurableDomain.xsd:108-117), with the keys of ConfigurableDomains.xsd:8-29: the paths of the
elements and the names of the configurations are distinct, and the settings refer to them. -/
structure DomainElement (x : Xml) : Prop where
  tag : x.tag = s "ConfigurableDomain"
  attrs : OnlyAttrs x [s "Name", s "SequenceAware"]
  name : Required x (s "Name") NCName
  aware : Optional x (s "SequenceAware") XsBoolean
  text : x.text = []
  parts : ∃ confs els sets, x.children = confs :: els :: sets ∧
    Wrapper (s "Configurations") confs ∧ confs.children ≠ [] ∧ (∀ y ∈ confs.children, ConfigurationElement y) ∧
    (confs.children.map fun y => y.attr (s "Name")).Nodup ∧
    Wrapper (s "ConfigurableElements") els ∧ (∀ y ∈ els.children, PathElement y) ∧
    (els.children.map fun y => y.attr (s "Path")).Nodup ∧
    (sets = [] ∨ ∃ set, sets = [set] ∧ Wrapper (s "Settings") set ∧ ∀ y ∈ set.children, ConfigurationSettings y ∧
      (∃ c ∈ confs.children, c.attr (s "Name") = y.attr (s "Name")) ∧
      ∀ z ∈ y.children, ∃ e ∈ els.children, e.attr (s "Path") = z.attr (s "Path"))

/-- `ConfigurableDomains` (ConfigurableDomains.xsd:4-39). -/
structure DomainsDocument (x : Xml) : Prop where
  tag : x.tag = s "ConfigurableDomains"
  attrs : OnlyAttrs x [s "SystemClassName"]
  system : Required x (s "SystemClassName") NCName
  text : x.text = []
  some : x.children ≠ []
  domains : ∀ y ∈ x.children, DomainElement y
  unique : UniqueNames x.children

/-! ## What can be exported -/

end Spec

open Spec

/-- A floating-point number that is shown as the schemas want it: finite and not minus zero, or, shown raw and hexadecimal,
large enough to fill the width that is asked of the text, as the padding is put before the `0x`. -/
def FloatShown (ctx : Ctx) (v : BitVec 32) : Prop :=
  (ctx.raw = false → f32Finite v = true ∧ v ≠ 0x80000000#32) ∧
  (ctx.raw = true → ctx.hex = true → 0x100000 ≤ v.toNat)

/-- A stored number that is shown as the schemas want it. -/
def EKind.Presentable (ctx : Ctx) (b : Board) (off : Nat) : EKind → Prop
  | .scalar (.float _) => ∀ v, readScalar 4 b off = .ok v → FloatShown ctx v
  | .array ⟨.float _, n⟩ => ∀ j v, j < n → readScalar 4 b (off + j * 4) = .ok v → FloatShown ctx v
  | _ => True

/-- An element whose settings the schemas know: a parameter, or a block or component with something inside. -/
inductive Elem.Known : Elem → Prop
  | group {n k sy cs} : (k = s "ParameterBlock" ∨ k = s "ComponentInstance") → cs ≠ [] → (∀ c ∈ cs, c.Known) →
      Known (.mk n (.group k) sy cs)
  | bitBlock {n size sy cs} : cs ≠ [] → Known (.mk n (.bitBlock size) sy cs)
  | bit {n t sy cs} : Known (.mk n (.bit t) sy cs)
  | scalar {n t sy cs} : Known (.mk n (.scalar t) sy cs)
  | array {n t sy cs} : t.length ≠ 0 → Known (.mk n (.array t) sy cs)
  | string {n m sy cs} : Known (.mk n (.string m) sy cs)

namespace Spec

/-- The criteria of a rule have names of the schemas. -/
inductive RuleNames (cs : List Criterion) : Rule → Prop
  | crit {i : Nat} {verb : Verb} {v : BitVec 32} : (∀ c, cs[i]? = some c → NMToken c.name) → RuleNames cs (.crit i verb v)
  | compound {all : Bool} {rs : List Rule} : (∀ r ∈ rs, RuleNames cs r) → RuleNames cs (.compound all rs)

/-- A domain that the schemas can express: it has a configuration, its names are names of the schemas, and its elements are
parameters, blocks or components. -/
structure DomainKnown (root : Elem) (cs : List Criterion) (d : Domain) : Prop where
  name : NCName d.name
  configs : d.configs ≠ []
  configNames : ∀ c ∈ d.configs, NCName c.name
  rules : ∀ c ∈ d.configs, ∀ r, c.rule = some r → RuleNames cs r
  elems : ∀ p ∈ d.elems, ∃ e, root.at? p = some e ∧ e.Known

/-- The numbers in the settings of a domain are such that the schemas know how to write them. -/
def SettingsKnown (root : Elem) (ctx : Ctx) (d : Domain) : Prop :=
  ∀ c ∈ d.configs, ∀ a ∈ c.areas, ∀ e, root.at? a.elem = some e →
    ∀ q f o, e.at? q = some f → e.offset 0 q = some o → f.kind.Presentable ctx a.board o

end Spec
end PF
