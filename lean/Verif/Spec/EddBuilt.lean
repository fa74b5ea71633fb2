import Verif.Spec.Edd
import Verif.Spec.Generator
import Verif.Spec.Domain
import Verif.Spec.Message

/-!
# What the framework holds after the commands of a description
-/

namespace PF.Spec

/-- A word that a command is given as it is written: its characters are bytes and it has no white space at its ends (the arguments of
commands are trimmed). -/
def Kept (w : Str) : Prop := (∀ c ∈ w, c.toNat < 256) ∧ Trimmed (strBytes w)

/-- The two lists have the same length, and what is at the same place in both is related. -/
inductive Each {α β : Type} (P : α → β → Prop) : List α → List β → Prop
  | nil : Each P [] []
  | cons {a b as bs} : P a b → Each P as bs → Each P (a :: as) (b :: bs)

/-- `SetAll … b l b'`: setting the parameters of `l` to their texts, one after the other, from the settings `b`, is accepted each time
and gives the settings `b'`. -/
inductive SetAll (rd : Reader) (ctx : Ctx) (root : Elem) : Board → List (Str × Str) → Board → Prop
  | nil (b : Board) : SetAll rd ctx root b [] b
  | cons {b b1 b2 p v l} : Elem.setText rd ctx root 0 b p v = (.ok (), b1) → SetAll rd ctx root b1 l b2 →
      SetAll rd ctx root b ((p, v) :: l) b2

/-- The parameters that the configurations of a domain of a description set. -/
def EddSets (dom : EddNode) (path : Str) : Prop := ∃ y ∈ eddConfChains [] dom.kids, path ∈ (eddSettings y.2.2).map (·.1)

/-- The domain `d` is the one of the description at the end of the way `x`: its name, its awareness and the names of its configurations
are as described, none of them is applied, and its elements are parameters that are set, or elements set as a whole; each parameter that
is set is in one of them. -/
structure DomainBuilt (root : Elem) (x : EddChain × (List EddNode × EddNode)) (d : Domain) : Prop where
  name : d.name = eddFullName (x.1 ++ [x.2])
  aware : d.seqAware = eddAware (x.1 ++ [x.2])
  last : d.last = none
  configurations : d.configs.map Config.name = (eddConfChains [] x.2.2.kids).map fun y => eddFullName (y.1 ++ [y.2])
  elements : ∀ q ∈ d.elems, ∃ path, EddSets x.2.2 path ∧ root.locate path = some q
  covers : ∀ path, EddSets x.2.2 path → ∃ p, root.locate path = some p ∧ ∃ q ∈ d.elems, q <+: p

/-- The state `after` is the state `before` with what the description says. -/
structure DescriptionBuilt (env : Env) (ctx : Ctx) (tree : EddNode) (before after : St) : Prop where
  /-- The domains that were there are as they were, and those of the description follow in its order. -/
  domains : ∃ news, after.domains = before.domains ++ news ∧ Each (DomainBuilt env.root) (eddDomChains [] tree.kids) news
  /-- A configuration qualifies when all the rules that apply to it hold. -/
  rules : ∀ gs dom cs conf, EddConfAt tree gs dom cs conf → ∃ d c, after.findDomain (eddFullName (gs ++ [dom])) = some d ∧
    d.findConfig (eddFullName (cs ++ [conf])) = some c ∧
    ∀ rs, EddMeansAll before.criteria (eddRulesAlong [] (gs ++ dom :: (cs ++ [conf]))) rs →
      ∀ criteria, Qualifies criteria c ↔ ∀ r ∈ rs, Sat criteria r
  /-- Restoring a configuration leaves what is outside of its domain, and sets each parameter to its text. -/
  settings : ∀ gs dom cs conf, EddConfAt tree gs dom cs conf → ∃ d, after.findDomain (eddFullName (gs ++ [dom])) = some d ∧
    ∀ (hw : Hardware) (sync : Bool) (m : Mem), m.main.length = env.root.footprint → ∃ b0 b, b0.length = env.root.footprint ∧
      (∀ i, (∀ q ∈ d.elems, ¬ env.root.Owns q i) → b0.bit i = m.main.bit i) ∧
      SetAll env.rd ctx env.root b0 (eddSettings conf.2) b ∧
      restored env.root hw sync after m (eddFullName (gs ++ [dom])) (eddFullName (cs ++ [conf])) = some b
  /-- Nothing else changes. -/
  others : after.mem = before.mem ∧ after.criteria = before.criteria

end PF.Spec
