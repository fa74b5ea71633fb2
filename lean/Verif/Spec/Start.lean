import Verif.Model.Start
import Verif.Spec.Access
import Verif.Spec.Domain
import Verif.Spec.Structure
import Verif.Spec.XmlDomains

/-! # Specification vocabulary for the start of the framework -/

namespace PF.Spec

/-- The bytes hold the default value of the type: the lower bound of an integer, the first declared
value of an enumeration (as many low bytes of it as the parameter has), zero otherwise. -/
def IsDefault (bs : List Byte) : ScalarType → Prop
  | .int t => memValue t.signed bs = t.min
  | .enum t => match t.pairs with
    | [] => decLE bs = 0
    | (_, v) :: _ => memValue true bs = Int.bmod v.toInt (2 ^ (8 * t.size))
  | _ => decLE bs = 0

/-- The memory `b` has the default value of a parameter of kind `k` at offset `off`: that of its type,
in each element of an array, an empty text, a bit field of zeros. -/
def DefaultAt (b : Board) (off : Nat) : EKind → Prop
  | .scalar t => ∃ bs, b.read off t.size = some bs ∧ IsDefault bs t
  | .array t => ∀ j, j < t.length → ∃ bs, b.read (off + j * t.elem.size) t.elem.size = some bs ∧ IsDefault bs t.elem
  | .string _ => getString b off = .ok []
  | .bit t => ∀ i, i < t.bits → b.bit (8 * off + t.pos + i) = false
  | _ => False

/-- The parameter at `p` has its default value. -/
def HoldsDefault (root : Elem) (b : Board) (p : Pos) : Prop :=
  ∃ e off, root.at? p = some e ∧ root.offset 0 p = some off ∧ DefaultAt b off e.kind

/-- The types of the parameter are ones the structure files can declare. -/
def SoundKind : EKind → Prop
  | .scalar t => Spec.Sound t
  | .array t => Spec.Sound t.elem
  | _ => True

/-- A configuration that the state of the criteria selects sets the element at `p`, or one above or
below it. -/
def Selected (st : St) (p : Pos) : Prop :=
  ∃ d ∈ st.domains, (∃ c, FirstQualifying st.criteria d.configs c) ∧ ∃ q ∈ d.elems, p <+: q ∨ q <+: p

/-- The settings file gives no settings for the element at `p`, nor for one above or below it, in any domain
of which a configuration is selected (and whose configurations have distinct names): it lists the
element in such a domain without settings, or not at all. -/
def NotSet (root : Elem) (settings : Settings) (st : St) (p : Pos) : Prop :=
  ∀ (k : Nat) (d : Domain), st.domains[k]? = some d → (∃ c, FirstQualifying st.criteria d.configs c) →
    ∀ q ∈ d.elems, p <+: q ∨ q <+: p →
      (d.configs.map Config.name).Nodup ∧ (∀ c ∈ d.configs, c.name ≠ []) ∧
      ∃ x y path, settings = .doc x ∧ x.children[k]? = some y ∧ root.path q = some path ∧
        ∀ c ∈ d.configs, givenFor (settingsElems true y) c.name path = none

end PF.Spec
