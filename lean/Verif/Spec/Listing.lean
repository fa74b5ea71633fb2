import Verif.Model.Listing
import Verif.Spec.Domain

/-! # Specification of the listings -/

namespace PF.Spec

/-- The texts, one on each line. -/
def Lines : List Str → Str
  | [] => []
  | t :: ts => t ++ s "\n" ++ Lines ts

/-- The texts, with a comma and a space between them. -/
def Commas : List Str → Str
  | [] => []
  | [t] => t
  | t :: u :: ts => t ++ s ", " ++ Commas (u :: ts)

/-- The path of the element at `p`. -/
def pathOf (root : Elem) (p : Pos) : Str := (root.path p).getD []

/-- The kind of the element at `p`. -/
def kindOf (root : Elem) (p : Pos) : Str := ((root.at? p).map (·.kind.text)).getD []

/-- The name of the element at `p`. -/
def nameOf (root : Elem) (p : Pos) : Str := ((root.at? p).map (·.name)).getD []

/-- The path of the element at `p` and, in brackets, its kind. -/
def ElementLine (root : Elem) (p : Pos) : Str := pathOf root p ++ s " [" ++ kindOf root p ++ s "]"

/-- `path` is the path of the element at `p`, or only slashes, for the root. -/
def Designates (root : Elem) (path : Str) (p : Pos) : Prop :=
  root.locate path = some p ∨ (path ≠ [] ∧ (∀ c ∈ path, c = '/') ∧ p = [])

/-- The positions are in the order of the structure document: an element is before those below it, and
those below an element are before the next brother of it. -/
def DocumentOrder (ps : List Pos) : Prop := ps.Pairwise (· < ·)

/-- The line of an element in a dump: four spaces for each level, the kind, the name if there is one, the
value if there is one. -/
def DumpLine (level : Nat) (kind name value : Str) : Str :=
  List.replicate (level * 4) ' ' ++ s "- " ++ kind ++
    (if name = [] then [] else s ": " ++ name) ++ (if value = [] then [] else s " = " ++ value)

/-- `ds` are the domains of the state for which `P` holds, each one once. -/
def AreDomains (st : St) (P : Domain → Prop) (ds : List Domain) : Prop :=
  (ds.map (·.id)).Nodup ∧ ∀ d, d ∈ ds ↔ d ∈ st.domains ∧ P d

/-- The element at `p` belongs to the domain: it, or an element above it, is associated with the domain. -/
def BelongsTo (p : Pos) (d : Domain) : Prop := ∃ q ∈ d.elems, q <+: p

/-- The element at `p` is contained in two domains or more. -/
def Conflicting (st : St) (p : Pos) : Prop :=
  ∃ d ∈ st.domains, ∃ d' ∈ st.domains, d ≠ d' ∧ BelongsTo p d ∧ BelongsTo p d'

/-- The text shown for the last applied configuration. -/
def LastShown (d : Domain) (t : Str) : Prop :=
  (d.last = none ∧ t = s "<none>") ∨ ∃ c ∈ d.configs, d.last = some c.id ∧ t = c.name

/-- The text shown for the pending configuration: the one that an application would switch to, nothing if
it is already applied, `<none>` if there is none. -/
def PendingShown (cs : List Criterion) (d : Domain) (t : Str) : Prop :=
  ((∀ c ∈ d.configs, ¬ Qualifies cs c) ∧ t = s "<none>") ∨
  ∃ c, FirstQualifying cs d.configs c ∧
    ((Switches cs false d c ∧ t = c.name) ∨ (¬ Switches cs false d c ∧ t = []))

end PF.Spec
