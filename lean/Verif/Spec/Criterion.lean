import Verif.Model.Rule
import Verif.Spec.Text

/-!
# Specification of selection criteria and rules

Nothing here uses the evaluation or parsing functions of the model.
-/

namespace PF.Spec

/-- Bitwise OR of a list of numbers. -/
def orOf : List (BitVec 32) → BitVec 32
  | [] => 0#32
  | v :: vs => v ||| orOf vs

/-- Bit `i` of a state. -/
def hasBit (v : BitVec 32) (i : Nat) : Prop := v.getLsbD i = true

/-- Meaning of the four verbs, in terms of bits. -/
def VerbHolds (verb : Verb) (state v : BitVec 32) : Prop :=
  match verb with
  | .is => state = v
  | .isNot => state ≠ v
  | .includes => ∀ i, hasBit v i → hasBit state i
  | .excludes => ∀ i, hasBit v i → ¬ hasBit state i

/-- Truth of a rule: `All` means every sub-rule, `Any` means some sub-rule. -/
inductive Sat (cs : List Criterion) : Rule → Prop
  | crit (i : Nat) (verb : Verb) (v : BitVec 32) (c : Criterion)
      (hc : cs[i]? = some c) (h : VerbHolds verb c.state v) : Sat cs (.crit i verb v)
  | all (rs : List Rule) (h : ∀ r ∈ rs, Sat cs r) : Sat cs (.compound true rs)
  | any (rs : List Rule) (r : Rule) (hr : r ∈ rs) (h : Sat cs r) : Sat cs (.compound false rs)

/-- The rule only refers to criteria that exist. -/
inductive Refs (cs : List Criterion) : Rule → Prop
  | crit (i : Nat) (verb : Verb) (v : BitVec 32) (hi : i < cs.length) : Refs cs (.crit i verb v)
  | compound (a : Bool) (rs : List Rule) (h : ∀ r ∈ rs, Refs cs r) : Refs cs (.compound a rs)

/-- Number of times a state really changes when the values `vs` are set one after the other. -/
def realChanges (state : BitVec 32) : List (BitVec 32) → Nat
  | [] => 0
  | v :: vs => (if state = v then 0 else 1) + realChanges v vs

end PF.Spec

namespace PF.Spec

/-- A number the type knows: a registered number, or (inclusive types) an OR of registered ones. -/
def KnownValue (t : CritType) (v : BitVec 32) : Prop :=
  if t.inclusive then ∃ vs, (∀ w ∈ vs, ∃ l, (l, w) ∈ t.map) ∧ v = orOf vs
  else ∃ l, (l, v) ∈ t.map

/-- A rule that makes sense for the criteria: the criteria exist, `Includes`/`Excludes` are only
used on inclusive criteria, the values are known. -/
inductive WellTyped (cs : List Criterion) : Rule → Prop
  | crit (i : Nat) (verb : Verb) (v : BitVec 32) (c : Criterion) (hc : cs[i]? = some c)
      (hverb : c.type.inclusive = true ∨ verb = .is ∨ verb = .isNot)
      (hval : KnownValue c.type v) : WellTyped cs (.crit i verb v)
  | compound (a : Bool) (rs : List Rule) (h : ∀ r ∈ rs, WellTyped cs r) :
      WellTyped cs (.compound a rs)

/-- Rules that the text form can express: the criterion is the one its name designates, the name
and the literal hold no character that is special in rules, the verb is allowed for the type and
the number is that of one literal which reads back to it. -/
inductive Printable (cs : List Criterion) : Rule → Prop
  | crit (i : Nat) (verb : Verb) (v : BitVec 32) (c : Criterion) (l : Str)
      (hc : cs[i]? = some c)
      (hfirst : ∀ j c', j < i → cs[j]? = some c' → c'.pathName ≠ c.name)
      (hname : c.name ≠ [] ∧ ∀ x ∈ c.name, x ≠ '{' ∧ x ≠ '}' ∧ x ≠ ' ')
      (hverb : c.type.inclusive = true ∨ verb = .is ∨ verb = .isNot)
      (hlit : c.type.literal v = some l)
      (hchars : ∀ x ∈ l, x ≠ '{' ∧ x ≠ '}' ∧ x ≠ ' ' ∧ x ≠ ',')
      (hback : c.type.numerical l = some v) : Printable cs (.crit i verb v)
  | compound (a : Bool) (rs : List Rule) (h : ∀ r ∈ rs, Printable cs r) :
      Printable cs (.compound a rs)

end PF.Spec
