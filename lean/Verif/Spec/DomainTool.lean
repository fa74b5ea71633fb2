import Verif.Model.DomainTool
import Verif.Spec.CriteriaFile
import Verif.Spec.EddBuilt

/-!
# Specification of the tool that generates domains
-/

namespace PF.Spec

/-- The state `after` is the state `before` with what the descriptions say (see `DescriptionBuilt`). -/
structure DescriptionsBuilt (env : Env) (ctx : Ctx) (trees : List EddNode) (before after : St) : Prop where
  /-- The domains that were there are as they were, and those of the descriptions follow in their order. -/
  domains : ∃ news, after.domains = before.domains ++ news ∧
    Each (DomainBuilt env.root) (trees.flatMap fun tree => eddDomChains [] tree.kids) news
  /-- A configuration qualifies when all the rules that apply to it hold. -/
  rules : ∀ tree ∈ trees, ∀ gs dom cs conf, EddConfAt tree gs dom cs conf → ∃ d c,
    after.findDomain (eddFullName (gs ++ [dom])) = some d ∧ d.findConfig (eddFullName (cs ++ [conf])) = some c ∧
    ∀ rs, EddMeansAll before.criteria (eddRulesAlong [] (gs ++ dom :: (cs ++ [conf]))) rs →
      ∀ criteria, Qualifies criteria c ↔ ∀ r ∈ rs, Sat criteria r
  /-- Restoring a configuration leaves what is outside of its domain, and sets each parameter to its text. -/
  settings : ∀ tree ∈ trees, ∀ gs dom cs conf, EddConfAt tree gs dom cs conf → ∃ d,
    after.findDomain (eddFullName (gs ++ [dom])) = some d ∧
    ∀ (hw : Hardware) (sync : Bool) (m : Mem), m.main.length = env.root.footprint → ∃ b0 b, b0.length = env.root.footprint ∧
      (∀ i, (∀ q ∈ d.elems, ¬ env.root.Owns q i) → b0.bit i = m.main.bit i) ∧
      SetAll env.rd ctx env.root b0 (eddSettings conf.2) b ∧
      restored env.root hw sync after m (eddFullName (gs ++ [dom])) (eddFullName (cs ++ [conf])) = some b
  /-- Nothing else changes. -/
  others : after.mem = before.mem ∧ after.criteria = before.criteria

/-- The commands that import the given files: first all domains, then single ones. -/
def imports (a : ToolArgs) : List (List Str) :=
  (a.initial.toList.map fun f => [s "importDomainsWithSettingsXML", f]) ++ a.domains.map fun f => [s "importDomainWithSettingsXML", f]

/-- The texts that the tool passes on can be written in a script and are not changed by the framework. -/
structure PlainArgs (a : ToolArgs) : Prop where
  criteria : ∀ t ∈ a.criteria, '\x00' ∉ t
  imports : (∀ f, a.initial = some f → Word f) ∧ ∀ f ∈ a.domains, Word f
  edds : ∀ f ∈ a.edds, ∀ cmds, eddCommands f = .ok cmds → ∀ k ∈ cmds, ∀ w ∈ k, Kept w ∧ Word w

end PF.Spec
