import Verif.Model.Domain
import Verif.Spec.Tree
import Verif.Spec.Criterion

/-! # Specification vocabulary for domains and configurations -/

namespace PF

/-- The value an area holds for bit `i` of the main blackboard (meaningful for the bits its element
owns). -/
def Area.value (root : Elem) (a : Area) (i : Nat) : Bool :=
  a.board.bit (i - 8 * (root.offset 0 a.elem).getD 0)

/-- The memory of an area is that of an element of the structure. -/
def Area.Sized (root : Elem) (a : Area) : Prop :=
  ∃ e, root.at? a.elem = some e ∧ a.board.length = e.areaSize

end PF

namespace PF.Spec

/-- The syncer `x` concerns the element at `p`: it is the syncer of the element itself, of one above
it or of one below it. -/
def Concerns (root : Elem) (p : Pos) (x : Nat) : Prop :=
  ∃ q e, (q <+: p ∨ p <+: q) ∧ root.at? q = some e ∧ e.syncer = some x

/-! ## Which configuration an application selects -/

/-- The configuration has a rule and the rule is true. -/
def Qualifies (cs : List Criterion) (c : Config) : Prop := ∃ r, c.rule = some r ∧ Sat cs r

/-- `c` is the first configuration of the list that qualifies. -/
def FirstQualifying (cs : List Criterion) (l : List Config) (c : Config) : Prop :=
  ∃ pre post, l = pre ++ c :: post ∧ Qualifies cs c ∧ ∀ x ∈ pre, ¬ Qualifies cs x

/-- The domain is to be switched to `c`: it is the one selected, and it is not already the last
applied one (or the application is forced). -/
def Switches (cs : List Criterion) (force : Bool) (d : Domain) (c : Config) : Prop :=
  FirstQualifying cs d.configs c ∧ (force = true ∨ d.last ≠ some c.id)

/-- The areas to be written by the domains with the given sequence awareness: those of the
configurations they switch to, domain by domain, in the order each configuration holds them. -/
inductive Plan (cs : List Criterion) (force aware : Bool) : List Domain → List Area → Prop
  | nil : Plan cs force aware [] []
  | skip (d : Domain) (ds : List Domain) (as : List Area)
      (h : d.seqAware ≠ aware ∨ ∀ c, ¬ Switches cs force d c) (rest : Plan cs force aware ds as) :
      Plan cs force aware (d :: ds) as
  | switch (d : Domain) (ds : List Domain) (c : Config) (as : List Area) (ha : d.seqAware = aware)
      (h : Switches cs force d c) (rest : Plan cs force aware ds as) :
      Plan cs force aware (d :: ds) (c.areas ++ as)

/-! ## Writing settings -/

/-- `b'` is `b` with the bits of the element of `a` set to what `a` holds. -/
def Written (root : Elem) (a : Area) (b b' : Board) : Prop :=
  b'.length = b.length ∧
  (∀ i, root.Owns a.elem i → b'.bit i = a.value root i) ∧
  (∀ i, ¬ root.Owns a.elem i → b'.bit i = b.bit i)

/-- The areas are written one after the other. -/
inductive WrittenAll (root : Elem) : List Area → Board → Board → Prop
  | nil (b : Board) : WrittenAll root [] b b
  | cons (a : Area) (as : List Area) (b b1 b2 : Board) (h : Written root a b b1)
      (rest : WrittenAll root as b1 b2) : WrittenAll root (a :: as) b b2

/-- The areas are written one after the other, and after each one the syncers of its element are
called, with the blackboard as it is at that time. -/
inductive ElementByElement (root : Elem) : List Area → Board → List SyncEvent → Board → Prop
  | nil (b : Board) : ElementByElement root [] b [] b
  | cons (a : Area) (as : List Area) (b b1 b2 : Board) (ev : List SyncEvent) (h : Written root a b b1)
      (rest : ElementByElement root as b1 ev b2) :
      ElementByElement root (a :: as) b ((root.syncerSet a.elem).map (fun x => ⟨x, b1⟩) ++ ev) b2

/-! ## What a configuration holds, as seen by restoring it -/

/-- The main blackboard after `restoreConfiguration` of a configuration, from the memory `m` (`none`:
the restoration is refused or stops). -/
def restored (root : Elem) (hw : Hardware) (autoSync : Bool) (st : St) (m : Mem) (dom name : Str) : Option Board :=
  match St.restoreConfiguration root hw autoSync dom name { st with mem := m } with
  | (.ok _, st') => some st'.mem.main
  | _ => none

end PF.Spec
