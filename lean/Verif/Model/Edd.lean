import Verif.Model.Rule

/-!
# Model of the domain description language

`tools/xmlGenerator/EddParser.py`, `PfwBaseTranslator.py`, `PFWScriptGenerator.py` and the part of `domainGenerator.py` that uses them:
a description of domains (a ".pfw" file) is read, and turned into commands for the domain generator.

A line of the file is a `Str` without its end of line.  Python lists and dictionaries that are changed in place are modelled by
functions that return the new value.
-/

namespace PF

/-- `str.strip` takes these off both ends.  Simplification: the spaces beyond the first 128 characters are not counted. -/
def pySpace (c : Char) : Bool := c == ' ' || (9 ≤ c.toNat && c.toNat ≤ 13) || (28 ≤ c.toNat && c.toNat ≤ 31)

/-- `str.strip()`. -/
def pyStrip (t : Str) : Str := ((t.dropWhile pySpace).reverse.dropWhile pySpace).reverse

/-- `t.split(d, 1)`: what precedes the first `d`, and what follows it if there is one. -/
def pySplit1 (d : Char) : Str → Str × Option Str
  | [] => ([], none)
  | c :: cs => if c = d then ([], some cs) else let (a, b) := pySplit1 d cs; (c :: a, b)

/-- `sep.join(parts)`. -/
def pyJoin (sep : Str) : List Str → Str
  | [] => []
  | [w] => w
  | w :: ws => w ++ sep ++ pyJoin sep ws

/-- The elements and their options (EddParser.py:325-580, 692-705). -/
inductive EddElem where
  | root
  | domainGroup (name : Str) (aware : Bool)
  | domain (name : Str) (aware : Bool)
  | confGroup (name : Str)
  | conf (name : Str)
  | operator (name : Str)
  | rule (criterion verb value : Str)
  | path (name value : Str)
  | component (name : Str)
deriving DecidableEq, Repr

/-- `Element` (EddParser.py:149-165). -/
inductive EddNode where
  | mk (el : EddElem) (kids : List EddNode)
deriving Repr

def EddNode.el : EddNode → EddElem
  | .mk e _ => e

def EddNode.kids : EddNode → List EddNode
  | .mk _ k => k

/-- The errors: the exceptions that the tools turn into an exit status (EddParser.py:737-777), and the `KeyError` of
`Operator.PFWSyntax`, which they do not. -/
inductive EddErr where
  | spaceInIndentation | unknownElement | indentation | childNotPermitted
  | undefinedParameter (domain : Str)
  | keyError
deriving DecidableEq, Repr

/-! ## Reading -/

/-- `re.compile(tag + r" *:").match` (EddParser.py:348, 434, 537, 584, 694). -/
def eddTagged (tag t : Str) : Bool := tag.isPrefixOf t && ((t.drop tag.length).dropWhile (· == ' ')).head? == some ':'

/-- `[a-zA-Z0-9_.]`. -/
def eddWordChar (c : Char) : Bool := c.isAlphanum || c == '_' || c == '.'

/-- The match of `Rule` (EddParser.py:382).  Greedy repetitions need no backtracking: what follows each of them starts with a
character that it does not take. -/
def eddRuleMatch (t : Str) : Bool :=
  let r1 := t.dropWhile eddWordChar
  let r2 := r1.dropWhile (· == ' ')
  (t.takeWhile eddWordChar) != [] && (r1.takeWhile (· == ' ')) != [] &&
    [s "Is", s "IsNot", s "Includes", s "Excludes"].any fun v =>
      v.isPrefixOf r2 && ((r2.drop v.length).takeWhile (· == ' ')) != [] &&
        (((r2.drop v.length).dropWhile (· == ' ')).takeWhile eddWordChar) != []

/-- `ElementWithTag.extractOptions` for an element with one option (EddParser.py:258-261, 175-185). -/
def eddTaggedName (t : Str) : Str :=
  match pySplit1 ':' (pyStrip t) with
  | (a, none) => pyStrip a
  | (_, some b) => pyStrip b

/-- `Domain.extractOptions` (EddParser.py:626-641). -/
def eddDomainOptions (t : Str) : Str × Bool :=
  match pySplit1 ' ' (eddTaggedName t) with
  | (a, none) => (pyStrip a, false)
  | (a, some b) => (pyStrip a, pyStrip b == s "sequenceAware")

/-- `Element.extractOptions` for `Path` (EddParser.py:175-185, 325-330); the delimiter is there, by the match. -/
def eddPathOptions (t : Str) : Str × Str :=
  match pySplit1 '=' (pyStrip t) with
  | (a, none) => (pyStrip a, [])
  | (a, some b) => (pyStrip a, pyStrip b)

/-- `Element.extractOptions` for `Rule` (EddParser.py:175-185, 381): cut at the first two spaces. -/
def eddRuleOptions (t : Str) : Str × Str × Str :=
  match pySplit1 ' ' (pyStrip t) with
  | (a, none) => (pyStrip a, [], [])
  | (a, some b) =>
    match pySplit1 ' ' b with
    | (c, none) => (pyStrip a, pyStrip c, [])
    | (c, some d) => (pyStrip a, pyStrip c, pyStrip d)

/-- `ElementsFactory.createElementFromLine` (EddParser.py:789-817): the first class of the list that matches; `none` is the
`CommentWarning` of `Commentary`.  (`EmptyLine` cannot match: the rest of a line starts with another character.) -/
def eddElement (rest : Str) : Except EddErr (Option EddElem) :=
  if rest.head? = some '#' then .ok none
  else if eddTagged (s "supDomain") rest || eddTagged (s "domainGroup") rest then
    .ok (some (.domainGroup (eddDomainOptions rest).1 (eddDomainOptions rest).2))
  else if eddTagged (s "domain") rest then .ok (some (.domain (eddDomainOptions rest).1 (eddDomainOptions rest).2))
  else if rest.tail.contains '=' then .ok (some (.path (eddPathOptions rest).1 (eddPathOptions rest).2))
  else if eddTagged (s "supConf") rest || eddTagged (s "confGroup") rest || eddTagged (s "confType") rest then
    .ok (some (.confGroup (eddTaggedName rest)))
  else if eddTagged (s "conf") rest then .ok (some (.conf (eddTaggedName rest)))
  else if (s "ANY").isPrefixOf rest || (s "ALL").isPrefixOf rest then .ok (some (.operator (pyStrip rest)))
  else if eddRuleMatch rest then
    .ok (some (.rule (eddRuleOptions rest).1 (eddRuleOptions rest).2.1 (eddRuleOptions rest).2.2))
  else if eddTagged (s "component") rest then .ok (some (.component (eddTaggedName rest)))
  else .error .unknownElement

/-- `Parser.__getRank__` and the creation of the element (EddParser.py:826-861): the rank and the element of a line; `none` for a
line that is skipped with a warning. -/
def eddLine (line : Str) : Except EddErr (Option (Nat × EddElem)) :=
  let indent := line.takeWhile fun c => c == '\t' || c == ' '
  let rest := line.dropWhile fun c => c == '\t' || c == ' '
  if rest = [] then .ok none
  else if ' ' ∈ indent then .error .spaceInIndentation
  else
    match eddElement rest with
    | .error e => .error e
    | .ok none => .ok none
    | .ok (some e) => .ok (some (indent.length + 1, e))

/-- The white lists (`childWhiteList`, EddParser.py:350, 383, 403, 435, 538, 586, 695, 705; `Element` has an empty one). -/
def EddElem.permits : EddElem → EddElem → Bool
  | .root, .domain .. | .root, .domainGroup .. => true
  | .domainGroup .., .domainGroup .. | .domainGroup .., .domain .. | .domainGroup .., .confGroup _ | .domainGroup .., .rule ..
  | .domainGroup .., .operator _ => true
  | .domain .., .conf _ | .domain .., .confGroup _ | .domain .., .rule .. | .domain .., .operator _ => true
  | .confGroup _, .rule .. | .confGroup _, .operator _ | .confGroup _, .confGroup _ | .confGroup _, .conf _
  | .confGroup _, .component _ => true
  | .conf _, .rule .. | .conf _, .operator _ | .conf _, .path .. | .conf _, .component _ => true
  | .component _, .path .. | .component _, .component _ => true
  | .operator _, .rule .. | .operator _, .operator _ => true
  | _, _ => false

/-- The open elements, the innermost first, each with the children that are complete.  Simplification: in the code an element is
put among the children of its parent when it is opened; here, when it is closed. -/
abbrev EddStack := List (EddElem × List EddNode)

/-- Close the innermost element. -/
def eddClose : EddStack → EddStack
  | (e, k) :: (e', k') :: st => (e', k' ++ [.mk e k]) :: st
  | st => st

/-- `while len(context) > rank: context.pop()` (EddParser.py:879-880), `n` being how many are popped. -/
def eddCloseN : Nat → EddStack → EddStack
  | 0, st => st
  | n + 1, st => eddCloseN n (eddClose st)

/-- One turn of the loop of `Parser.parse`, for a line that is not skipped (EddParser.py:863-867, 876-882). -/
def eddPush (rank : Nat) (e : EddElem) (prev : Nat) (st : EddStack) : Except EddErr EddStack :=
  if rank > prev + 1 then .error .indentation
  else
    match eddCloseN (st.length - rank) st with
    | (p, k) :: st' => if p.permits e then .ok ((e, []) :: (p, k) :: st') else .error .childNotPermitted
    | [] => .error .indentation            -- unreachable: the root is never popped

/-- `Parser.parse` (EddParser.py:869-894): the loop. -/
def eddLoop (prev : Nat) (st : EddStack) : List Str → Except EddErr EddStack
  | [] => .ok st
  | line :: lines =>
    match eddLine line with
    | .error e => .error e
    | .ok none => eddLoop prev st lines
    | .ok (some (rank, e)) =>
      match eddPush rank e prev st with
      | .error e => .error e
      | .ok st => eddLoop rank st lines

/-- `Parser.parse` (EddParser.py:869-894). -/
def eddParse (lines : List Str) : Except EddErr EddNode :=
  match eddLoop 0 [(.root, [])] lines with
  | .error e => .error e
  | .ok st =>
    match eddCloseN (st.length - 1) st with
    | (e, k) :: _ => .ok (.mk e k)
    | [] => .error .indentation            -- unreachable

/-! ## Propagation -/

def EddElem.isRule : EddElem → Bool
  | .rule .. | .operator _ => true
  | _ => false

/-- `extractChildrenByClass([Operator, Rule])` (EddParser.py:225-236). -/
def eddRules (kids : List EddNode) : List EddNode := kids.filter fun k => k.el.isRule

/-- `PropagationContext` (EddParser.py:73-110).  `groups`: the original name of a group of configurations, and its rules, which are
all that is used of the copy. -/
structure EddCtx where
  domains : List (Str × Bool)
  groups : List (Str × List EddNode)
  confs : List Str
  rules : List EddNode
  paths : List Str

/-- `Configuration.composition` (EddParser.py:437-452): the rules that are put in front of the children. -/
def EddCtx.composed (ctx : EddCtx) (name : Str) : List EddNode := (ctx.groups.filter fun g => g.1 == name).flatMap (·.2)

/-- The context of the children of a domain (EddParser.py:596-624, 282-296). -/
def EddCtx.inDomain (ctx : EddCtx) (name : Str) (aware : Bool) (kids : List EddNode) : EddCtx :=
  { ctx with domains := ctx.domains ++ [(name, aware)], rules := ctx.rules ++ eddRules kids }

/-- The context of the children of a configuration, or of a group of them (EddParser.py:465-477, 282-296). -/
def EddCtx.inConf (ctx : EddCtx) (name : Str) (composed kids : List EddNode) : EddCtx :=
  { ctx with confs := ctx.confs ++ [name], rules := ctx.rules ++ (composed ++ eddRules kids) }

/-- The context of the children of a component (EddParser.py:335-343). -/
def EddCtx.inComponent (ctx : EddCtx) (name : Str) : EddCtx := { ctx with paths := ctx.paths ++ [name] }

/-- `GroupConfiguration.composition` (EddParser.py:540-554): what the following siblings, and its own children, see. -/
def EddCtx.withGroup (ctx : EddCtx) (name : Str) (kids : List EddNode) : EddCtx :=
  { ctx with groups := ctx.groups ++ [(name, eddRules kids)] }

mutual
/-- `propagate` (EddParser.py:238-241, 266-277, 335-343, 454-463, 588-594), without the check of domains, which is `eddUndefined`;
returns the context as its siblings will see it.  Rules are given to it with their children, which are rules: they are left as they
are.  Likewise for paths, which have no children. -/
def eddPropagate (ctx : EddCtx) : EddNode → EddCtx × EddNode
  | .mk .root kids => (ctx, .mk .root (eddPropagateAll ctx kids).2)          -- it has no siblings
  | .mk (.domainGroup n a) kids =>
    let c := ctx.inDomain n a kids
    (ctx, .mk (.domainGroup (pyJoin (s ".") (c.domains.map (·.1))) (c.domains.any (·.2))) (ctx.rules ++ (eddPropagateAll c kids).2))
  | .mk (.domain n a) kids =>
    let c := ctx.inDomain n a kids
    (ctx, .mk (.domain (pyJoin (s ".") (c.domains.map (·.1))) (c.domains.any (·.2))) (ctx.rules ++ (eddPropagateAll c kids).2))
  | .mk (.confGroup n) kids =>
    let c := (ctx.withGroup n kids).inConf n (ctx.composed n) kids
    (ctx.withGroup n kids,
      .mk (.confGroup (pyJoin (s ".") c.confs)) (ctx.rules ++ (ctx.composed n ++ (eddPropagateAll c kids).2)))
  | .mk (.conf n) kids =>
    let c := ctx.inConf n (ctx.composed n) kids
    (ctx, .mk (.conf (pyJoin (s ".") c.confs)) (ctx.rules ++ (ctx.composed n ++ (eddPropagateAll c kids).2)))
  | .mk (.operator n) kids => (ctx, .mk (.operator n) kids)
  | .mk (.rule a b c) kids => (ctx, .mk (.rule a b c) kids)
  | .mk (.path n v) kids => (ctx, .mk (.path (pyJoin (s "/") (ctx.paths ++ [n])) v) kids)
  | .mk (.component n) kids =>
    (ctx, .mk (.component (pyJoin (s "/") (ctx.paths ++ [n]))) (eddPropagateAll (ctx.inComponent n) kids).2)
/-- The loop over the children (EddParser.py:238-241). -/
def eddPropagateAll (ctx : EddCtx) : List EddNode → EddCtx × List EddNode
  | [] => (ctx, [])
  | k :: ks =>
    let r := eddPropagate ctx k
    let rs := eddPropagateAll r.1 ks
    (rs.1, r.2 :: rs.2)
end

/-! ## The elements that configurations set -/

/-- The names of the paths among some elements. -/
def eddDirectPaths : List EddNode → List Str
  | [] => []
  | .mk (.path n _) _ :: ks => n :: eddDirectPaths ks
  | _ :: ks => eddDirectPaths ks

mutual
def eddComponentPaths : EddNode → List Str
  | .mk (.component _) kids => eddDirectPaths kids ++ eddComponentPathsAll kids
  | _ => []
/-- The paths in the components among some elements. -/
def eddComponentPathsAll : List EddNode → List Str
  | [] => []
  | k :: ks => eddComponentPaths k ++ eddComponentPathsAll ks
end

/-- `GroupPath.getPathNames` (EddParser.py:352-365). -/
def eddPathNames (kids : List EddNode) : List Str := eddDirectPaths kids ++ eddComponentPathsAll kids

/-- `getConfigurableElements` of the configurations among some elements (EddParser.py:489-492, 565-567). -/
def eddDirectConfs : List EddNode → List (List Str)
  | [] => []
  | .mk (.conf _) kids :: ks => eddPathNames kids :: eddDirectConfs ks
  | _ :: ks => eddDirectConfs ks

mutual
def eddGroupConfs : EddNode → List (List Str)
  | .mk (.confGroup _) kids => eddDirectConfs kids ++ eddGroupConfsAll kids
  | _ => []
/-- Those of the configurations in the groups among some elements (EddParser.py:569-571). -/
def eddGroupConfsAll : List EddNode → List (List Str)
  | [] => []
  | k :: ks => eddGroupConfs k ++ eddGroupConfsAll ks
end

/-- `Domain.getRootConfiguration` and `GroupConfiguration.getConfigurableElements` (EddParser.py:557-572, 643-651). -/
def eddConfElements (kids : List EddNode) : List (List Str) := eddDirectConfs kids ++ eddGroupConfsAll kids

/-- Order of texts. -/
def pyLe : Str → Str → Bool
  | [], _ => true
  | _ :: _, [] => false
  | a :: as, b :: bs => if a = b then pyLe as bs else a.toNat < b.toNat

def pyInsert (w : Str) : List Str → List Str
  | [] => [w]
  | x :: xs => if pyLe w x then w :: x :: xs else x :: pyInsert w xs

/-- `list.sort`. -/
def pySort : List Str → List Str
  | [] => []
  | w :: ws => pyInsert w (pySort ws)

/-- `Domain.checkConfigurableElementUnicity` (EddParser.py:654-676). -/
def eddUnicity (kids : List EddNode) : Bool :=
  match eddConfElements kids with
  | [] => true
  | first :: others => others.all fun l => pySort l == pySort first

mutual
/-- The name of the domain for which `checkConfigurableElementUnicity` raises, on the elements as `propagate` leaves them
(EddParser.py:588-594): it runs when the children are done. -/
def eddUndefined : EddNode → Option Str
  | .mk (.domainGroup n _) kids =>
    match eddUndefinedAll kids with
    | some d => some d
    | none => if eddUnicity kids then none else some n
  | .mk (.domain n _) kids =>
    match eddUndefinedAll kids with
    | some d => some d
    | none => if eddUnicity kids then none else some n
  | _ => none
def eddUndefinedAll : List EddNode → Option Str
  | [] => none
  | k :: ks =>
    match eddUndefined k with
    | some d => some d
    | none => eddUndefinedAll ks
end

/-! ## Translation -/

/-- `Operator.syntax` (EddParser.py:405): `none` is the `KeyError`. -/
def eddOperator (name : Str) : Option Str :=
  if name = s "ANY" then some (s "Any") else if name = s "ALL" then some (s "All") else none

mutual
/-- `PFWSyntax` (EddParser.py:385-392, 410-427). -/
def eddRuleText (pre : Str) : EddNode → Option Str
  | .mk (.rule c v e) _ => some (pre ++ (c ++ s " " ++ v ++ s " " ++ e))
  | .mk (.operator n) kids =>
    match eddOperator n, eddRuleTexts (pre ++ s "    ") kids with
    | some w, some ts => some (pre ++ w ++ s "{ " ++ pyJoin (s " , ") ts ++ pre ++ s " }")
    | _, _ => none
  | _ => none
/-- Those of the rules among some elements. -/
def eddRuleTexts (pre : Str) : List EddNode → Option (List Str)
  | [] => some []
  | k :: ks =>
    if k.el.isRule then
      match eddRuleText pre k, eddRuleTexts pre ks with
      | some t, some ts => some (t :: ts)
      | _, _ => none
    else eddRuleTexts pre ks
end

/-- `Configuration.getRuleString` (EddParser.py:494-509). -/
def eddRuleString (kids : List EddNode) : Option Str :=
  match eddRules kids with
  | [.mk (.operator n) k] => eddRuleText [] (.mk (.operator n) k)
  | rs => eddRuleText [] (.mk (.operator (s "ALL")) rs)

/-- A command with its arguments. -/
abbrev EddCmd := List Str

mutual
/-- `translate` of paths and components (EddParser.py:332-333, 367-369; PfwBaseTranslator.py:136-145; PFWScriptGenerator.py:65-66). -/
def eddParams (d c : Str) : EddNode → List EddCmd
  | .mk (.path n v) _ => [[s "setConfigurationParameter", d, c, n, v]]
  | .mk (.component _) kids => eddParamsAll d c kids
  | _ => []
def eddParamsAll (d c : Str) : List EddNode → List EddCmd
  | [] => []
  | k :: ks => eddParams d c k ++ eddParamsAll d c ks
end

/-- `Configuration.translate` (EddParser.py:511-518; PfwBaseTranslator.py:96-134; PFWScriptGenerator.py:56-63).  The back end raises no
`PfwException`, so the domain and the configuration are always valid. -/
def eddConf (d : Str) (aware : Bool) (c : Str) (kids : List EddNode) : Option (List EddCmd) :=
  match eddRuleString kids with
  | none => none
  | some t =>
    some ([[s "createConfiguration", d, c], [s "setRule", d, c, t]] ++
      (if aware then [[s "setElementSequence", d, c] ++ eddPathNames kids] else []) ++ eddParamsAll d c kids)

/-- One list after the other, if both are there. -/
def eddAppend {α : Type} : Option (List α) → Option (List α) → Option (List α)
  | some a, some b => some (a ++ b)
  | _, _ => none

mutual
/-- `translate` of configurations and groups of configurations (EddParser.py:511-518, 574-576). -/
def eddConfs (d : Str) (aware : Bool) : EddNode → Option (List EddCmd)
  | .mk (.conf c) kids => eddConf d aware c kids
  | .mk (.confGroup _) kids => eddConfsAll d aware kids
  | _ => some []
def eddConfsAll (d : Str) (aware : Bool) : List EddNode → Option (List EddCmd)
  | [] => some []
  | k :: ks => eddAppend (eddConfs d aware k) (eddConfsAll d aware ks)
end

/-- `Domain.translate` (EddParser.py:678-690; PfwBaseTranslator.py:71-94; PFWScriptGenerator.py:47-54). -/
def eddDomain (d : Str) (aware : Bool) (kids : List EddNode) : Option (List EddCmd) :=
  eddAppend
    (some ([[s "createDomain", d]] ++ (if aware then [[s "setSequenceAwareness", d, s "true"]] else []) ++
      ((eddConfElements kids).head?.getD []).map fun p => [s "addElement", d, p]))
    (eddConfsAll d aware kids)

mutual
/-- `translate` of domains and groups of domains (EddParser.py:250-252, 678-690, 697-699). -/
def eddTranslate : EddNode → Option (List EddCmd)
  | .mk (.domain d aware) kids => eddDomain d aware kids
  | .mk (.domainGroup _ _) kids => eddTranslateAll kids
  | _ => some []
def eddTranslateAll : List EddNode → Option (List EddCmd)
  | [] => some []
  | k :: ks => eddAppend (eddTranslate k) (eddTranslateAll ks)
end

/-- `PropagationContext()`. -/
def EddCtx.empty : EddCtx := { domains := [], groups := [], confs := [], rules := [], paths := [] }

/-- What the generator does with a description (domainGenerator.py:130-149, 170-176): parse, propagate, translate.  The root, which has
no parent, propagates to its children, and translates them (EddParser.py:238-252). -/
def eddCommands (lines : List Str) : Except EddErr (List EddCmd) :=
  match eddParse lines with
  | .error e => .error e
  | .ok tree =>
    let out := (eddPropagate .empty tree).2.kids
    match eddUndefinedAll out with
    | some d => .error (.undefinedParameter d)
    | none =>
      match eddTranslateAll out with
      | none => .error .keyError
      | some cmds => .ok cmds

end PF
