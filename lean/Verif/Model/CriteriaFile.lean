import Verif.Model.Criterion

/-!
# Model of the files of criteria

`parseCriteria` (tools/xmlGenerator/domainGenerator.py:91-128): a file of criteria is read for the domain generator.

A line is a `Str` without its end of line, of which the regular expression makes no difference.  The program writes texts to a pipe as
they are, so it is one of Python 2: `re.split` splits where the expression matches something.
-/

namespace PF

/-- `\s` of the regular expressions. -/
def reSpace (c : Char) : Bool := c == ' ' || (9 ≤ c.toNat && c.toNat ≤ 13)

/-- What follows a prefix. -/
def dropPrefix : Str → Str → Option Str
  | [], t => some t
  | _ :: _, [] => none
  | p :: ps, c :: cs => if p = c then dropPrefix ps cs else none

/-- `(?P<name>\S+)\s*:\s*(?P<values>.*)$` where the name has at most `i` characters, the longest first (domainGenerator.py:103-104).
The spaces before the colon are all taken: with less, a space would follow instead of the colon. -/
def criterionName (r : Str) : Nat → Option (Str × Str)
  | 0 => none
  | i + 1 =>
    match (r.drop (i + 1)).dropWhile reSpace with
    | ':' :: vs => some (r.take (i + 1), vs.dropWhile reSpace)
    | _ => criterionName r i

/-- What follows the type (domainGenerator.py:102-104): `\s*`, and a name that is at most as long as there are characters that are not
spaces. -/
def criterionRest (r : Str) : Option (Str × Str) :=
  criterionName (r.dropWhile reSpace) ((r.dropWhile reSpace).takeWhile fun c => !reSpace c).length

/-- A character before the first piece. -/
def pushChar (c : Char) : List Str → List Str
  | [] => [[c]]
  | w :: ws => (c :: w) :: ws

/-- `re.split("\s*", t)` (domainGenerator.py:118); `inside`: the character before was a space. -/
def reSplit (inside : Bool) : Str → List Str
  | [] => [[]]
  | c :: cs => if reSpace c then (if inside then reSplit true cs else [] :: reSplit true cs) else pushChar c (reSplit false cs)

/-- A criterion as the tool keeps it (domainGenerator.py:122-125). -/
structure CriterionLine where
  inclusive : Bool
  name : Str
  values : List Str
deriving DecidableEq, Repr

/-- One line (domainGenerator.py:110-125); `none`: the line does not match. -/
def parseCriterion (t : Str) : Option CriterionLine :=
  match dropPrefix (s "InclusiveCriterion") t with
  | some r => (criterionRest r).map fun x => ⟨true, x.1, reSplit false x.2⟩
  | none =>
    match dropPrefix (s "ExclusiveCriterion") t with
    | some r => (criterionRest r).map fun x => ⟨false, x.1, reSplit false x.2⟩
    | none => none

/-- `parseCriteria` (domainGenerator.py:91-128); `none`: a `ValueError` is raised. -/
def parseCriteria : List Str → Option (List CriterionLine)
  | [] => some []
  | t :: ts =>
    match parseCriterion t with
    | none => none
    | some c => (parseCriteria ts).map fun cs => c :: cs

/-- The command of a criterion (domainGenerator.py:154-156). -/
def CriterionLine.command (c : CriterionLine) : List Str :=
  [s "createSelectionCriterion", if c.inclusive then s "inclusive" else s "exclusive", c.name] ++ c.values

end PF
