import Verif.Model.Edd
import Verif.Spec.RuleText
import Verif.Spec.Text

/-!
# What a description of domains says

In terms of the tree of the lines of the description: an element and, below it, the elements of the lines that are indented under its
line.  Nothing here uses how the tools propagate or translate.
-/

namespace PF

/-- The name that a line gives. -/
def EddElem.name : EddElem → Str
  | .root => []
  | .domainGroup n _ => n
  | .domain n _ => n
  | .confGroup n => n
  | .conf n => n
  | .operator n => n
  | .rule c _ _ => c
  | .path n _ => n
  | .component n => n

/-- The line of a domain, or of a group of domains, ends with `sequenceAware`. -/
def EddElem.aware : EddElem → Bool
  | .domainGroup _ a => a
  | .domain _ a => a
  | _ => false

def EddElem.isDomainGroup : EddElem → Bool
  | .domainGroup .. => true
  | _ => false

def EddElem.isDomain : EddElem → Bool
  | .domain .. => true
  | _ => false

def EddElem.isConfGroup : EddElem → Bool
  | .confGroup _ => true
  | _ => false

def EddElem.isConf : EddElem → Bool
  | .conf _ => true
  | _ => false

namespace Spec

/-! ## The tree of the lines -/

mutual
/-- The lines of an element and of what is below it, in order: how far each is indented (from 1), and its element. -/
def eddPreorder (rank : Nat) : EddNode → List (Nat × EddElem)
  | .mk e kids => (rank, e) :: eddPreorderAll (rank + 1) kids
def eddPreorderAll (rank : Nat) : List EddNode → List (Nat × EddElem)
  | [] => []
  | k :: ks => eddPreorder rank k ++ eddPreorderAll rank ks
end

/-- Where an element may be: `eddMayBeIn child parent`. -/
def eddMayBeIn : EddElem → EddElem → Bool
  | .root, _ => false
  | .domainGroup .., p | .domain .., p => p == .root || p.isDomainGroup
  | .confGroup _, p => p.isDomainGroup || p.isDomain || p.isConfGroup
  | .conf _, p => p.isDomain || p.isConfGroup
  | .rule .., p | .operator _, p => p.isDomainGroup || p.isDomain || p.isConfGroup || p.isConf || (p matches .operator _)
  | .path .., p => p.isConf || (p matches .component _)
  | .component _, p => p.isConf || p.isConfGroup || (p matches .component _)

mutual
/-- Every element is below one that may hold it. -/
def EddPermitted : EddNode → Prop
  | .mk e kids => EddPermittedAll e kids
def EddPermittedAll (e : EddElem) : List EddNode → Prop
  | [] => True
  | k :: ks => eddMayBeIn k.el e = true ∧ EddPermitted k ∧ EddPermittedAll e ks
end

/-- The lines that say something: neither blank nor a comment. -/
def eddSignificant : List Str → Except EddErr (List (Nat × EddElem))
  | [] => .ok []
  | line :: lines =>
    match eddLine line, eddSignificant lines with
    | .error e, _ => .error e
    | .ok _, .error e => .error e
    | .ok none, .ok l => .ok l
    | .ok (some x), .ok l => .ok (x :: l)

/-! ## Configurations and what applies to them -/

/-- A way down the tree: elements, each below the one before it, and with each the elements that precede it under the same one. -/
abbrev EddChain := List (List EddNode × EddNode)

/-- `Below kids ch`: `ch` is a way down from `kids`. -/
inductive EddBelow : List EddNode → EddChain → Prop
  | here (pre : List EddNode) (n : EddNode) (post : List EddNode) : EddBelow (pre ++ n :: post) [(pre, n)]
  | deeper (pre : List EddNode) (n : EddNode) (post : List EddNode) {ch : EddChain} : EddBelow n.kids ch →
      EddBelow (pre ++ n :: post) ((pre, n) :: ch)

/-- A configuration of the description: below a domain, which may be below groups of domains, and perhaps below groups of
configurations. -/
structure EddConfAt (tree : EddNode) (gs : EddChain) (d : List EddNode × EddNode) (cs : EddChain) (c : List EddNode × EddNode) :
    Prop where
  below : EddBelow tree.kids (gs ++ d :: (cs ++ [c]))
  domainGroups : ∀ g ∈ gs, g.2.el.isDomainGroup = true
  domain : d.2.el.isDomain = true
  confGroups : ∀ g ∈ cs, g.2.el.isConfGroup = true
  conf : c.2.el.isConf = true

/-- A domain of the description. -/
structure EddDomainAt (tree : EddNode) (gs : EddChain) (d : List EddNode × EddNode) : Prop where
  below : EddBelow tree.kids (gs ++ [d])
  domainGroups : ∀ g ∈ gs, g.2.el.isDomainGroup = true
  domain : d.2.el.isDomain = true

/-- The names along a way, joined with dots. -/
def eddFullName (ch : EddChain) : Str := joinWith '.' (ch.map fun x => x.2.el.name)

/-- A domain is sequence aware if its line says so, or that of a group it is in. -/
def eddAware (ch : EddChain) : Bool := ch.any fun x => x.2.el.aware

/-- The rules that an element has directly below it. -/
def eddOwnRules (n : EddNode) : List EddNode := n.kids.filter fun k => k.el.isRule

/-- The rules that apply at the end of a way down, `scope` being the groups of configurations that are in scope at its start.  A
group is in scope for what follows it under the same element, and for what is below it.  Each element of the way brings its own
rules; a configuration, and a group of configurations, also bring those of the groups in scope that have the same name. -/
def eddRulesAlong (scope : List EddNode) : EddChain → List EddNode
  | [] => []
  | (pre, n) :: rest =>
    let scope := scope ++ pre.filter fun k => k.el.isConfGroup
    (if n.el.isConf || n.el.isConfGroup then (scope.filter fun g => g.el.name == n.el.name).flatMap eddOwnRules else []) ++
      eddOwnRules n ++ eddRulesAlong (scope ++ if n.el.isConfGroup then [n] else []) rest

mutual
/-- The lines `path = value` at or below an element: the names of the components and that of the path, and the value. -/
def eddPathLinesOf : EddNode → List (List Str × Str)
  | .mk (.path n v) _ => [([n], v)]
  | .mk (.component n) kids => (eddPathLines kids).map fun l => (n :: l.1, l.2)
  | _ => []
def eddPathLines : List EddNode → List (List Str × Str)
  | [] => []
  | k :: ks => eddPathLinesOf k ++ eddPathLines ks
end

/-- The parameters that a configuration sets, and their values, in the order of the lines. -/
def eddSettings (c : EddNode) : List (Str × Str) := (eddPathLines c.kids).map fun l => (joinWith '/' l.1, l.2)

/-! ## In the order of the lines -/

mutual
/-- The configurations at or below an element that follows `pre`. -/
def eddConfChain (pre : List EddNode) : EddNode → List (EddChain × (List EddNode × EddNode))
  | .mk (.conf c) kids => [([], (pre, .mk (.conf c) kids))]
  | .mk (.confGroup g) kids => (eddConfChains [] kids).map fun x => ((pre, .mk (.confGroup g) kids) :: x.1, x.2)
  | _ => []
/-- The configurations at or below elements that follow `pre`. -/
def eddConfChains (pre : List EddNode) : List EddNode → List (EddChain × (List EddNode × EddNode))
  | [] => []
  | k :: ks => eddConfChain pre k ++ eddConfChains (pre ++ [k]) ks
end

mutual
/-- The domains at or below an element that follows `pre`. -/
def eddDomChain (pre : List EddNode) : EddNode → List (EddChain × (List EddNode × EddNode))
  | .mk (.domain n a) kids => [([], (pre, .mk (.domain n a) kids))]
  | .mk (.domainGroup n a) kids => (eddDomChains [] kids).map fun x => ((pre, .mk (.domainGroup n a) kids) :: x.1, x.2)
  | _ => []
/-- The domains at or below elements that follow `pre`. -/
def eddDomChains (pre : List EddNode) : List EddNode → List (EddChain × (List EddNode × EddNode))
  | [] => []
  | k :: ks => eddDomChain pre k ++ eddDomChains (pre ++ [k]) ks
end

/-- The commands of a name. -/
def eddNamed (k : Str) (cmds : List EddCmd) : List EddCmd := cmds.filter fun c => c.head? == some k

/-- For the domains `xs`: each command is there once, in the order of the lines (elements of a domain: in any order). -/
structure EddOnce (xs : List (EddChain × (List EddNode × EddNode))) (cmds : List EddCmd) : Prop where
  domains : eddNamed (s "createDomain") cmds = xs.map fun x => [s "createDomain", eddFullName (x.1 ++ [x.2])]
  awareness : eddNamed (s "setSequenceAwareness") cmds = (xs.filter fun x => eddAware (x.1 ++ [x.2])).map fun x =>
    [s "setSequenceAwareness", eddFullName (x.1 ++ [x.2]), s "true"]
  elements : (eddNamed (s "addElement") cmds).Perm (xs.flatMap fun x =>
    (((eddConfChains [] x.2.2.kids).head?.map fun y => (eddSettings y.2.2).map (·.1)).getD []).map fun p =>
      [s "addElement", eddFullName (x.1 ++ [x.2]), p])
  configurations : eddNamed (s "createConfiguration") cmds = xs.flatMap fun x => (eddConfChains [] x.2.2.kids).map fun y =>
    [s "createConfiguration", eddFullName (x.1 ++ [x.2]), eddFullName (y.1 ++ [y.2])]
  rules : (eddNamed (s "setRule") cmds).map (·.take 3) = xs.flatMap fun x => (eddConfChains [] x.2.2.kids).map fun y =>
    [s "setRule", eddFullName (x.1 ++ [x.2]), eddFullName (y.1 ++ [y.2])]
  sequences : (eddNamed (s "setElementSequence") cmds).map (·.take 3) = xs.flatMap fun x => if eddAware (x.1 ++ [x.2]) then
      (eddConfChains [] x.2.2.kids).map fun y => [s "setElementSequence", eddFullName (x.1 ++ [x.2]), eddFullName (y.1 ++ [y.2])]
    else []
  values : eddNamed (s "setConfigurationParameter") cmds = xs.flatMap fun x => (eddConfChains [] x.2.2.kids).flatMap fun y =>
    (eddSettings y.2.2).map fun l => [s "setConfigurationParameter", eddFullName (x.1 ++ [x.2]), eddFullName (y.1 ++ [y.2]), l.1, l.2]

/-! ## What can be translated -/

mutual
/-- Holds of every element. -/
def EddEvery (P : EddNode → Prop) : EddNode → Prop
  | .mk e kids => P (.mk e kids) ∧ EddEveryAll P kids
def EddEveryAll (P : EddNode → Prop) : List EddNode → Prop
  | [] => True
  | k :: ks => EddEvery P k ∧ EddEveryAll P ks
end

/-- The configurations in a domain, or in a group of domains, set the same parameters; operators are `ANY` or `ALL`. -/
structure EddSound (n : EddNode) : Prop where
  same : n.el.isDomain = true ∨ n.el.isDomainGroup = true → ∀ x ∈ eddConfChains [] n.kids, ∀ y ∈ eddConfChains [] n.kids,
    ((eddSettings x.2.2).map (·.1)).Perm ((eddSettings y.2.2).map (·.1))
  operator : ∀ m, n.el = .operator m → m = s "ANY" ∨ m = s "ALL"

/-! ## The meaning of rule lines -/

mutual
/-- `EddMeans cs n r`: the rule line `n` (with what is below it) means the rule `r` for the criteria `cs`. -/
def EddMeans (cs : List Criterion) : EddNode → Rule → Prop
  | .mk (.rule c v e) _, r => ∃ name verb value a b : Str, RuleWord name ∧ RuleWord value ∧ Spaces a ∧ a ≠ [] ∧ Spaces b ∧ b ≠ [] ∧
      c ++ s " " ++ v ++ s " " ++ e = name ++ a ++ verb ++ b ++ value ∧ CritMeans cs name verb value r
  | .mk (.operator n) kids, r => ∃ rs, EddMeansAll cs kids rs ∧
      (n = s "ALL" ∧ r = .compound true rs ∨ n = s "ANY" ∧ r = .compound false rs)
  | _, _ => False
/-- Each means one of the rules, in order. -/
def EddMeansAll (cs : List Criterion) : List EddNode → List Rule → Prop
  | [], rs => rs = []
  | k :: ks, rs => ∃ r rs', rs = r :: rs' ∧ EddMeans cs k r ∧ EddMeansAll cs ks rs'
end

end Spec
end PF
