import Verif.Model.RuleParser
import Verif.Spec.Criterion

/-!
# The language of application rules

What a text of a rule is, and what it means, independently of how it is read.
-/

namespace PF.Spec

/-- Any number of spaces. -/
def Spaces (t : Str) : Prop := ∀ c ∈ t, c = ' '

/-- A word of the language of rules. -/
def RuleWord (t : Str) : Prop := t ≠ [] ∧ ∀ c ∈ t, c ≠ '{' ∧ c ≠ '}' ∧ c ≠ ' ' ∧ c ≠ ','

/-- `CritMeans cs name verb value r`: the three words are a rule on the criterion of that name (the first one, should there be
several), with a verb that it allows, and a value that it has; `r` is the rule. -/
inductive CritMeans (cs : List Criterion) (name verb value : Str) : Rule → Prop
  | mk (i : Nat) (w : Verb) (v : BitVec 32) (c : Criterion) : cs[i]? = some c → c.name = name →
      (∀ j c', j < i → cs[j]? = some c' → c'.pathName ≠ name) → verb = w.text →
      (c.type.inclusive = true ∨ w = .is ∨ w = .isNot) → c.type.numerical value = some v → CritMeans cs name verb value (.crit i w v)

mutual
/-- The texts of a rule: three words with spaces between them; or `All` or `Any` and the texts of rules in braces. -/
inductive RuleText (cs : List Criterion) : Rule → Str → Prop
  | crit {name verb value a b : Str} {r : Rule} : RuleWord name → RuleWord value → CritMeans cs name verb value r →
      Spaces a → a ≠ [] → Spaces b → b ≠ [] → RuleText cs r (name ++ a ++ verb ++ b ++ value)
  | compound {all : Bool} {rs : List Rule} {body : Str} : RulesText cs rs body →
      RuleText cs (.compound all rs) (compoundType all ++ '{' :: (body ++ ['}']))
/-- The texts of rules, with commas between them, and spaces around each. -/
inductive RulesText (cs : List Criterion) : List Rule → Str → Prop
  | none {a : Str} : Spaces a → RulesText cs [] a
  | last {r : Rule} {a t b : Str} : Spaces a → RuleText cs r t → Spaces b → RulesText cs [r] (a ++ t ++ b)
  | more {r r' : Rule} {rs : List Rule} {a t b rest : Str} : Spaces a → RuleText cs r t → Spaces b → RulesText cs (r' :: rs) rest →
      RulesText cs (r :: r' :: rs) (a ++ t ++ b ++ ',' :: rest)
end

end PF.Spec
