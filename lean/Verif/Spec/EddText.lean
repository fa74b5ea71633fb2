import Verif.Spec.Edd

/-!
# How a description of domains is written
-/

namespace PF.Spec

/-- No space at either end. -/
def EddTrimmed (t : Str) : Prop := ∀ c, t.head? = some c ∨ t.getLast? = some c → pySpace c = false

/-- A word of a rule. -/
def EddWord (t : Str) : Prop := t ≠ [] ∧ ∀ c ∈ t, c.isAlphanum = true ∨ c = '_' ∨ c = '.'

/-- The line of an element, without its indentation. -/
def eddWrite : EddElem → Str
  | .root => []
  | .domainGroup n a => s "domainGroup: " ++ n ++ (if a then s " sequenceAware" else [])
  | .domain n a => s "domain: " ++ n ++ (if a then s " sequenceAware" else [])
  | .confGroup n => s "confGroup: " ++ n
  | .conf n => s "conf: " ++ n
  | .operator n => n
  | .rule c v e => c ++ s " " ++ v ++ s " " ++ e
  | .path n v => n ++ s " = " ++ v
  | .component n => s "component: " ++ n

/-- What the names and values of an element may be so that its line says it. -/
def EddWritable : EddElem → Prop
  | .root => False
  | .domainGroup n _ => n ≠ [] ∧ ∀ c ∈ n, pySpace c = false
  | .domain n _ => n ≠ [] ∧ ∀ c ∈ n, pySpace c = false
  | .confGroup n => EddTrimmed n ∧ '=' ∉ n
  | .conf n => EddTrimmed n ∧ '=' ∉ n
  | .operator n => n = s "ANY" ∨ n = s "ALL"
  | .rule c v e => EddWord c ∧ EddWord e ∧ (v = s "Is" ∨ v = s "IsNot" ∨ v = s "Includes" ∨ v = s "Excludes") ∧
      ¬ s "ANY" <+: c ∧ ¬ s "ALL" <+: c
  | .path n v => n ≠ [] ∧ EddTrimmed n ∧ EddTrimmed v ∧ n.head? ≠ some '#' ∧ '=' ∉ n ∧ ':' ∉ n
  | .component n => EddTrimmed n ∧ '=' ∉ n

/-- The lines of a description, indented with tabs. -/
def eddWritten (tree : EddNode) : List Str :=
  (eddPreorderAll 1 tree.kids).map fun x => List.replicate (x.1 - 1) '\t' ++ eddWrite x.2

/-- A line that says nothing: blank, or a comment. -/
def EddIgnored (line : Str) : Prop :=
  (∀ c ∈ line, c = '\t' ∨ c = ' ') ∨ ∃ n t, line = List.replicate n '\t' ++ '#' :: t

end PF.Spec
