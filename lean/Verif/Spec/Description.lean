import Verif.Model.Command
import Verif.Spec.Numeric
import Verif.Spec.XmlDomains

/-! # Specification of the documents that describe criteria and structures -/

namespace PF.Spec

/-- The element describes the value: its literal, and its number in decimal digits (with a sign if it is negative). -/
def DescribesValue (x : Xml) (p : Str × BitVec 32) : Prop :=
  x.tag = s "ValuePair" ∧ x.attr (s "Literal") = some p.1 ∧ ∃ t, x.attr (s "Numerical") = some t ∧ PlainInt t p.2.toInt

/-- The element describes the criterion: its name, whether several values may hold together, the text of its state, and its
values. -/
structure DescribesCriterion (x : Xml) (c : Criterion) : Prop where
  tag : x.tag = s "SelectionCriterion"
  name : x.nameAttr = c.name
  kind : x.attr (s "Kind") = some (s "Inclusive") ∧ c.type.inclusive = true ∨
    x.attr (s "Kind") = some (s "Exclusive") ∧ c.type.inclusive = false
  state : x.attr (s "Value") = some (c.type.formattedState c.state)
  values : Alike DescribesValue x.children c.type.map

/-- The document shows the structure: the same tags and attributes, without text, and the same children in the same order. -/
inductive Shows : Xml → SXml → Prop
  | mk {x : Xml} {y : SXml} : x.tag = y.tag → x.attrs = y.attrs → x.text = [] → x.children.length = y.children.length →
      (∀ (i : Nat) a b, x.children[i]? = some a → y.children[i]? = some b → Shows a b) → Shows x y

end PF.Spec
