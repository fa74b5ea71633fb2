import Verif.Model.Rule

/-!
# Model of `parameter/RuleParser.cpp`

The position `_uiCurrentPos` in `_strApplicationRule` is represented by the remaining text.
-/

namespace PF

/-- `CRuleParser::Status` (RuleParser.h:41-51). -/
inductive PStatus where
  | init | beginCompound | endCompound | criterion | continue_ | done
deriving Repr, DecidableEq

/-- `_acDelimiters` (RuleParser.cpp:39-46). -/
def PStatus.delims : PStatus → List Char
  | .init => ['{']
  | .beginCompound => ['{', '}', ' ']
  | .endCompound => [',', '}']
  | .criterion => [',', '}']
  | .continue_ => ['{', ' ']
  | .done => []

/-- The errors reported by the parser (one constructor per error text). -/
inductive PErr where
  | missingOpeningBrace | missingClosingBrace | syntaxError | noRule
  | unknownCompoundType | noSuchCriterion | verbNotFound | verbIncompatible | valueError
deriving Repr, DecidableEq

/-- Parser state (RuleParser.h:80-92).  `root` is `_pRootRule`. -/
structure PState where
  rest : Str
  depth : Nat
  type : Str
  status : PStatus
  root : Option Rule
deriving Repr

/-- Outcomes: a value, a reported error, `std::terminate` through `ALWAYS_ASSERT`, or (model
only) fuel exhaustion, which `RuleParser` proofs show never happens. -/
inductive POut (α : Type) where
  | ok (a : α)
  | err (e : PErr)
  | abort
  | outOfFuel
deriving Repr

/-- Position of the first character satisfying `p`: text before it, the character, text after
it.  Models `std::string::find_first_of` / `find_first_not_of` from the current position. -/
def splitFirst (p : Char → Bool) : Str → Option (Str × Char × Str)
  | [] => none
  | c :: cs =>
    if p c then some ([], c, cs)
    else (splitFirst p cs).map (fun (a, d, b) => (c :: a, d, b))

/-- "Consume spaces" (RuleParser.cpp:153-158 and 245-250): the position moves to the first
non-space; it does not move if there is none. -/
def consumeSpaces (t : Str) : Str :=
  match splitFirst (fun c => c != ' ') t with
  | none => t
  | some (_, c, after) => c :: after

/-- `CRuleParser::iterate` (RuleParser.cpp:147-214).  The `ALWAYS_ASSERT` on the position holds
by construction (a remaining text is always inside the text). -/
def iterate (st : PState) : POut PState :=
  let rest := consumeSpaces st.rest
  match splitFirst (fun c => c ∈ st.status.delims) rest with
  | some (before, c, after) =>
    -- `_uiCurrentPos != length` is implied by the delimiter having been found
    if c = '{' then
      .ok { st with rest := after, status := .beginCompound, type := before, depth := st.depth + 1 }
    else if c = '}' then
      if st.depth = 0 then .err .missingOpeningBrace
      else .ok { st with rest := after, status := .endCompound, depth := st.depth - 1 }
    else if c = ' ' then
      .ok { st with rest := after, status := .criterion, type := before }
    else
      .ok { st with rest := after, status := .continue_ }
  | none =>
    if st.depth ≠ 0 then .err .missingClosingBrace
    else if rest ≠ [] then .err .syntaxError
    else .ok { st with rest := rest, status := .done }

/-- `CRuleParser::next` (RuleParser.cpp:241-265). -/
def nextWord (st : PState) : POut (Str × PState) :=
  let rest := consumeSpaces st.rest
  match splitFirst (fun c => c ∈ ['{', '}', ' ', ',']) rest with
  | none => .err .syntaxError
  | some (before, c, after) => .ok (before, { st with rest := c :: after })

/-- `CSelectionCriterionRule::setMatchesWhen` (SelectionCriterionRule.cpp:217-250): the table is
searched in order. -/
def setMatchesWhen (t : CritType) (word : Str) : POut Verb :=
  let rec go : List Verb → POut Verb
    | [] => .err .verbNotFound
    | v :: vs =>
      if word = v.text then
        if !t.inclusive && !v.exclusiveOk then .err .verbIncompatible else .ok v
      else go vs
  go [.is, .isNot, .includes, .excludes]

/-- `CSelectionCriterionRule::parse` (SelectionCriterionRule.cpp:61-108). -/
def parseCriterionRule (cs : List Criterion) (st : PState) : POut (Rule × PState) :=
  match findCriterion cs st.type with
  | none => .err .noSuchCriterion
  | some i =>
    match cs[i]? with
    | none => .err .noSuchCriterion       -- unreachable: `findCriterion` returns a valid index
    | some c =>
      match nextWord st with
      | .err e => .err e
      | .abort => .abort
      | .outOfFuel => .outOfFuel
      | .ok (verbWord, st) =>
        match nextWord st with
        | .err e => .err e
        | .abort => .abort
        | .outOfFuel => .outOfFuel
        | .ok (valueWord, st) =>
          match setMatchesWhen c.type verbWord with
          | .err e => .err e
          | .abort => .abort
          | .outOfFuel => .outOfFuel
          | .ok verb =>
            match c.type.numerical valueWord with
            | none => .err .valueError
            | some v => .ok (.crit i verb v, st)

/-- `CCompoundRule::parse` (CompoundRule.cpp:60-79). -/
def parseCompoundType (type : Str) : POut Bool :=
  if type = s "Any" then .ok false
  else if type = s "All" then .ok true
  else .err .unknownCompoundType

/-- `CRuleParser::parse` (RuleParser.cpp:61-144).

`hasParent` tells whether `pParentRule` is non-null and `acc` is the list of children of
`*pParentRule` so far; the result carries the final children.  The C++ code attaches a compound
rule to its parent (or to `_pRootRule`) before parsing its children; the model attaches it after,
which is the same because every failure of the inner parse fails the whole parse.
`fuel` bounds the number of loop turns. -/
def parseLoop (cs : List Criterion) :
    (fuel : Nat) → (hasParent : Bool) → (acc : List Rule) → PState → POut (List Rule × PState)
  | 0, _, _, _ => .outOfFuel
  | fuel + 1, hasParent, acc, st =>
    match iterate st with
    | .err e => .err e
    | .abort => .abort
    | .outOfFuel => .outOfFuel
    | .ok st =>
      match st.status with
      | .beginCompound =>
        match parseCompoundType st.type with
        | .err e => .err e
        | .abort => .abort
        | .outOfFuel => .outOfFuel
        | .ok all =>
          match parseLoop cs fuel true [] st with
          | .err e => .err e
          | .abort => .abort
          | .outOfFuel => .outOfFuel
          | .ok (children, st) =>
            if hasParent then
              parseLoop cs fuel hasParent (acc ++ [.compound all children]) st
            else
              parseLoop cs fuel hasParent acc { st with root := some (.compound all children) }
      | .endCompound => .ok (acc, st)
      | .continue_ => parseLoop cs fuel hasParent acc st
      | .criterion =>
        match parseCriterionRule cs st with
        | .err e => .err e
        | .abort => .abort
        | .outOfFuel => .outOfFuel
        | .ok (r, st) =>
          if hasParent then parseLoop cs fuel hasParent (acc ++ [r]) st
          else .abort                      -- ALWAYS_ASSERT(pParentRule != nullptr), line 117
      | .done => if st.root.isSome then .ok (acc, st) else .err .noRule
      | .init => .abort                    -- `default: assert(0)`, line 137

/-- A parse as started by `CDomainConfiguration::setApplicationRule`
(DomainConfiguration.cpp:270-286): new parser, `parse(nullptr)`, `grabRootRule`.  The fuel is the
length of the text plus one. -/
def parseRule (cs : List Criterion) (text : Str) : POut Rule :=
  match parseLoop cs (text.length + 1) false []
      { rest := text, depth := 0, type := [], status := .init, root := none } with
  | .err e => .err e
  | .abort => .abort
  | .outOfFuel => .outOfFuel
  | .ok (_, st) =>
    match st.root with
    | some r => .ok r
    | none => .abort                       -- `assert(pRootRule)`, RuleParser.cpp:233

end PF
