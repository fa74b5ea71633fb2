import Verif.Model.Criterion

/-!
# Model of application rules

`parameter/CompoundRule.cpp`, `parameter/SelectionCriterionRule.cpp`.
-/

namespace PF

/-- `CSelectionCriterionRule::MatchesWhen` (SelectionCriterionRule.h, table at
SelectionCriterionRule.cpp:43-45). -/
inductive Verb where
  | is | isNot | includes | excludes
deriving Repr, DecidableEq

/-- `pcMatchesWhen` (SelectionCriterionRule.cpp:43-45). -/
def Verb.text : Verb → Str
  | .is => s "Is" | .isNot => s "IsNot" | .includes => s "Includes" | .excludes => s "Excludes"

/-- `bExclusiveTypeCompatible` (SelectionCriterionRule.cpp:43-45). -/
def Verb.exclusiveOk : Verb → Bool
  | .is => true | .isNot => true | .includes => false | .excludes => false

/-- A rule.  `crit` is a `CSelectionCriterionRule`; the criterion pointer is the index of the
criterion in the list of criteria (`SelectionCriterionRule.h`: `_pSelectionCriterion`,
`_eMatchesWhen`, `_iMatchValue`).  `compound` is a `CCompoundRule` (`_bTypeAll` and children). -/
inductive Rule where
  | crit (idx : Nat) (verb : Verb) (value : BitVec 32)
  | compound (all : Bool) (children : List Rule)
deriving Repr

/-- The switch of `CSelectionCriterionRule::matches` (SelectionCriterionRule.cpp:127-139). -/
def Verb.eval (verb : Verb) (c : Criterion) (v : BitVec 32) : Bool :=
  match verb with
  | .is => c.is v
  | .isNot => c.isNot v
  | .includes => c.includes v
  | .excludes => c.excludes v

mutual
/-- `CRule::matches` (CompoundRule.cpp:111-126, SelectionCriterionRule.cpp:123-140).
`none` is the dereference of a null or dangling criterion pointer (an index outside the list
of criteria); criteria are never deleted, so reachable rules never do that. -/
def Rule.matches (cs : List Criterion) : Rule → Option Bool
  | .crit i verb v => (cs[i]?).map (fun c => verb.eval c v)
  | .compound all children => Rule.matchesLoop cs all children
/-- The loop of `CCompoundRule::matches` (CompoundRule.cpp:116-125). -/
def Rule.matchesLoop (cs : List Criterion) (all : Bool) : List Rule → Option Bool
  | [] => some all
  | r :: rs =>
    match r.matches cs with
    | none => none
    | some b => if (b != all) then some (!all) else Rule.matchesLoop cs all rs
end

/-- `_apcTypes[_bTypeAll]` (CompoundRule.cpp:38). -/
def compoundType (all : Bool) : Str := if all then s "All" else s "Any"

mutual
/-- `CRule::dump` (CompoundRule.cpp:82-108, SelectionCriterionRule.cpp:111-120).  For a criterion
index outside the list (dangling pointer) the model prints nothing. -/
def Rule.dump (cs : List Criterion) : Rule → Str
  | .crit i verb v =>
    match cs[i]? with
    | none => []
    | some c => c.name ++ [' '] ++ verb.text ++ [' '] ++ (c.type.literal v).getD []
  | .compound all children => compoundType all ++ ['{'] ++ Rule.dumpLoop cs true children ++ ['}']
/-- The loop of `CCompoundRule::dump` (CompoundRule.cpp:91-104); `first` is `bFirst`. -/
def Rule.dumpLoop (cs : List Criterion) (first : Bool) : List Rule → Str
  | [] => []
  | r :: rs => (if first then [] else s ", ") ++ r.dump cs ++ Rule.dumpLoop cs false rs
end

end PF
