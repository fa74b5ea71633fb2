import Verif.Model.CriteriaFile
import Verif.Spec.Generator

/-!
# Specification of the files of criteria
-/

namespace PF.Spec

/-- White space: the blank, and the characters 9 to 13. -/
def White (c : Char) : Prop := c = ' ' ∨ (9 ≤ c.toNat ∧ c.toNat ≤ 13)

def AllWhite (t : Str) : Prop := ∀ c ∈ t, White c

def NoWhite (t : Str) : Prop := ∀ c ∈ t, ¬ White c

/-- The text is these words, with white space between them. -/
inductive SplitInto : Str → List Str → Prop
  | last {w : Str} : NoWhite w → SplitInto w [w]
  | more {w sp t : Str} {ws : List Str} : NoWhite w → AllWhite sp → sp ≠ [] → (∀ c, t.head? = some c → ¬ White c) → SplitInto t ws →
      SplitInto (w ++ sp ++ t) (w :: ws)

/-- The text of the type of a criterion. -/
def kindText (inclusive : Bool) : Str := if inclusive then s "InclusiveCriterion" else s "ExclusiveCriterion"

/-- The line is a type, a name, a colon and a rest, with white space between them at will; the rest does not start with white space. -/
def NamedLine (t : Str) (inclusive : Bool) (name rest : Str) : Prop :=
  ∃ sp1 sp2 sp3, t = kindText inclusive ++ sp1 ++ name ++ sp2 ++ ':' :: sp3 ++ rest ∧ AllWhite sp1 ∧ AllWhite sp2 ∧ AllWhite sp3 ∧
    name ≠ [] ∧ NoWhite name ∧ ∀ c, rest.head? = some c → ¬ White c

/-- The line declares the criterion.  When a line can be read in several ways, because of colons, the name is the longest. -/
def LineDeclares (t : Str) (d : GenCriterion) : Prop :=
  ∃ rest, NamedLine t d.inclusive d.name rest ∧ SplitInto rest d.values ∧
    ∀ name' rest', NamedLine t d.inclusive name' rest' → name'.length ≤ d.name.length

/-- A line in the documented format, `<type> <name> : <value> <value...>`: the name and the values are words, the name is followed by
white space. -/
inductive WrittenLine (d : GenCriterion) : Str → Prop
  | mk {sp1 sp2 sp3 vs : Str} : AllWhite sp1 → AllWhite sp2 → sp2 ≠ [] → AllWhite sp3 → d.name ≠ [] → NoWhite d.name →
      (∀ w ∈ d.values, w ≠ []) → d.values ≠ [] → SplitInto vs d.values →
      WrittenLine d (kindText d.inclusive ++ sp1 ++ d.name ++ sp2 ++ ':' :: sp3 ++ vs)

end PF.Spec
