import Verif.Model.CApi
import Verif.Spec.Manager
import Verif.Lemmas.XmlShape

/-! # What the C API promises -/

namespace PF.Spec

/-- The number of the value at index `i` of a criterion: a bit for an inclusive criterion, the index for an
exclusive one (ParameterFramework.h:130-140, `pfwSetCriterion`). -/
def numberAt (inclusive : Bool) (i : Nat) : BitVec 32 :=
  if inclusive then BitVec.ofNat 32 (2 ^ i) else BitVec.ofNat 32 i

/-- The value names that a criterion can have: no name twice, and numbers that fit; inclusive criteria already have a
value `none`. -/
def GoodValues (inclusive : Bool) (ws : List Str) : Prop :=
  ws.Nodup ∧ if inclusive then ws.length ≤ 31 ∧ s "none" ∉ ws else ws.length ≤ 2 ^ 32

/-- The criteria that a start accepts: with a name and values, no two of the same name. -/
structure WellDeclared (ds : List PfwCriterion) : Prop where
  names : ∀ d ∈ ds, d.name ≠ none
  distinct : (ds.map (·.name)).Nodup
  values : ∀ d ∈ ds, ∃ ws, d.values = some ws ∧ GoodValues d.inclusive ws

/-- The type has exactly the values with these names, numbered by index; and `none` is 0 in an inclusive one. -/
def HasValues (t : CritType) (ws : List Str) : Prop :=
  ∀ w v, (w, v) ∈ t.map ↔
    (∃ i, ws[i]? = some w ∧ v = numberAt t.inclusive i) ∨ (t.inclusive = true ∧ w = s "none" ∧ v = 0#32)

/-- The criterion is the one declared, and its state is 0. -/
structure Declares (d : PfwCriterion) (c : Criterion) : Prop where
  name : d.name = some c.name
  inclusive : c.type.inclusive = d.inclusive
  values : ∃ ws, d.values = some ws ∧ HasValues c.type ws
  state : c.state = 0#32

/-- The same for lists. -/
def DeclaresAll (ds : List PfwCriterion) (cs : List Criterion) : Prop :=
  cs.length = ds.length ∧ ∀ (i : Nat) (d : PfwCriterion) (c : Criterion), ds[i]? = some d → cs[i]? = some c → Declares d c

/-- The handler after some events; a stop ends the history. -/
def PfwHandler.after (h : PfwHandler) : List PfwEvent → PfwHandler
  | [] => h
  | ev :: evs => PfwHandler.after (ev.step h).2 evs

/-- No event of the history stops the program. -/
def PfwHandler.Runs (h : PfwHandler) : List PfwEvent → Prop
  | [] => True
  | ev :: evs => (ev.step h).1 ≠ .abort ∧ PfwHandler.Runs (ev.step h).2 evs

/-- The other clients do not set criteria: they have no such command. -/
def NoOtherCriterion (evs : List PfwEvent) : Prop := ∀ i v, .other (.setCriterion i v) ∉ evs

/-- The value last set for a criterion by its name, if any. -/
def lastSetByName (name : Str) (evs : List PfwEvent) : Option (BitVec 32) :=
  evs.reverse.findSome? fun
    | .setCriterion n v => if n = name then some v else none
    | _ => none

/-- The files give a well-formed structure (see C62 for the structures that are loaded), and a settings document of the
shape the schema asks for. -/
def GoodFiles (f : PfwFiles) : Prop :=
  f.env.env.root.WF ∧ f.settings.Regular f.env.env.root

/-- The event can happen: the files of a start are good, handles are ones that were given, and what the other clients import
has the names the schema asks for. -/
def Possible (h : PfwHandler) : PfwEvent → Prop
  | .start (some f) _ => GoodFiles f
  | .getInt k => k < h.params.length
  | .setInt k _ => k < h.params.length
  | .getString k => k < h.params.length
  | .setString k _ => k < h.params.length
  | .other op => ∀ e m, h.pfw = some (.started e m) → op.Regular e.env.root
  | _ => True

/-- The handlers after some events. -/
inductive PfwReachable : PfwHandler → Prop
  | create : PfwReachable pfwCreate
  | step {h : PfwHandler} {ev : PfwEvent} : PfwReachable h → Possible h ev → (ev.step h).1 ≠ .abort →
      PfwReachable (ev.step h).2

/-- A call of the API, not something that other clients do. -/
def IsCall : PfwEvent → Prop
  | .other _ => False
  | _ => True

/-- The call can change parameters. -/
def ChangesParameters : PfwEvent → Prop
  | .start .. => True
  | .apply => True
  | .setInt .. => True
  | .setString .. => True
  | .other _ => True
  | _ => False

/-- No array of the structure is empty (an array length of 0 declares a parameter that is not an array). -/
def NoEmptyArray (root : Elem) : Prop := ∀ p el t, root.at? p = some el → el.kind = .array t → t.length ≠ 0

/-- The event cannot stop the program for the reasons of C76: it is a call, an application or a binding does not come
after a start that failed, the settings document of a start has the shape the schema asks for, and a text is not
read from a string parameter, whose memory may have no end (C39). -/
def Safe (h : PfwHandler) : PfwEvent → Prop
  | .start files _ => ∀ f x, files = some f → f.settings = .doc x → ∀ y ∈ x.children, DomainShape y
  | .apply => ∀ cs, h.pfw ≠ some (.failed cs)
  | .bind _ => ∀ cs, h.pfw ≠ some (.failed cs)
  | .getString k => ∀ e m p el n, h.pfw = some (.started e m) → h.params[k]? = some p → e.env.root.at? p = some el →
      el.kind ≠ .string n
  | .other _ => False
  | _ => True

end PF.Spec
