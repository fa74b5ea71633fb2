import Verif.Spec.Edd
import Verif.Lemmas.RuleText

/-! What the tools make of a description, as lists over the configurations of the tree. -/

namespace PF
open Spec

theorem pyJoin_eq (d : Char) : ∀ l : List Str, pyJoin [d] l = joinWith d l
  | [] => rfl
  | [_] => rfl
  | w :: w' :: ws => by
    rw [pyJoin, joinWith, pyJoin_eq d (w' :: ws)]
    · simp
    · simp
    · simp

/-! ## Lists that may fail -/

def eddSeq {α : Type} : List (Option (List α)) → Option (List α)
  | [] => some []
  | x :: xs => eddAppend x (eddSeq xs)

theorem eddAppend_assoc {α : Type} (a b c : Option (List α)) : eddAppend (eddAppend a b) c = eddAppend a (eddAppend b c) := by
  cases a <;> cases b <;> cases c <;> simp [eddAppend]

theorem eddAppend_nil {α : Type} (a : Option (List α)) : eddAppend (some []) a = a := by
  cases a <;> simp [eddAppend]

theorem eddSeq_append {α : Type} : ∀ a b : List (Option (List α)), eddSeq (a ++ b) = eddAppend (eddSeq a) (eddSeq b)
  | [], b => by simp [eddSeq, eddAppend_nil]
  | x :: xs, b => by simp [eddSeq, eddSeq_append xs b, eddAppend_assoc]

theorem eddSeq_mem {α : Type} : ∀ {l : List (Option (List α))} {r : List α}, eddSeq l = some r →
    (∀ o ∈ l, ∃ y, o = some y) ∧ ∀ x, x ∈ r ↔ ∃ y, some y ∈ l ∧ x ∈ y
  | [], r, h => by
    simp only [eddSeq, Option.some.injEq] at h
    subst h
    simp
  | o :: l, r, h => by
    rw [eddSeq] at h
    cases o with
    | none => simp [eddAppend] at h
    | some y =>
      cases e : eddSeq l with
      | none => rw [e] at h; simp [eddAppend] at h
      | some r' =>
        rw [e] at h
        simp only [eddAppend, Option.some.injEq] at h
        obtain ⟨h1, h2⟩ := eddSeq_mem e
        subst h
        refine ⟨by simpa using h1, fun x => ?_⟩
        simp only [List.mem_append, h2, List.mem_cons, Option.some.injEq]
        constructor
        · rintro (h | ⟨z, hz, hx⟩)
          · exact ⟨y, .inl rfl, h⟩
          · exact ⟨z, .inr hz, hx⟩
        · rintro ⟨z, rfl | hz, hx⟩
          · exact .inl hx
          · exact .inr ⟨z, hz, hx⟩

/-! ## Rules among other elements -/

theorem eddRules_of_all {l : List EddNode} (h : ∀ r ∈ l, r.el.isRule = true) : eddRules l = l := by
  unfold eddRules; exact List.filter_eq_self.2 h

theorem eddRules_append (a b : List EddNode) : eddRules (a ++ b) = eddRules a ++ eddRules b := by simp [eddRules]

theorem eddRules_isRule {l : List EddNode} : ∀ r ∈ eddRules l, r.el.isRule = true := by
  intro r h; simp only [eddRules, List.mem_filter] at h; exact h.2

theorem eddParamsAll_rules (d c : Str) : ∀ {l k : List EddNode}, (∀ r ∈ l, r.el.isRule = true) →
    eddParamsAll d c (l ++ k) = eddParamsAll d c k
  | [], k, _ => rfl
  | .mk e ks :: l, k, h => by
    have he := h _ (List.mem_cons_self ..)
    rw [List.cons_append, eddParamsAll, eddParamsAll_rules d c fun r hr => h r (List.mem_cons_of_mem _ hr)]
    cases e <;> simp_all [EddNode.el, EddElem.isRule, eddParams]

theorem eddDirectPaths_rules : ∀ {l k : List EddNode}, (∀ r ∈ l, r.el.isRule = true) → eddDirectPaths (l ++ k) = eddDirectPaths k
  | [], k, _ => rfl
  | .mk e ks :: l, k, h => by
    have he := h _ (List.mem_cons_self ..)
    have ih := eddDirectPaths_rules (l := l) (k := k) fun r hr => h r (List.mem_cons_of_mem _ hr)
    cases e <;> simp_all [EddNode.el, EddElem.isRule, eddDirectPaths]

theorem eddComponentPathsAll_rules : ∀ {l k : List EddNode}, (∀ r ∈ l, r.el.isRule = true) →
    eddComponentPathsAll (l ++ k) = eddComponentPathsAll k
  | [], k, _ => rfl
  | .mk e ks :: l, k, h => by
    have he := h _ (List.mem_cons_self ..)
    have ih := eddComponentPathsAll_rules (l := l) (k := k) fun r hr => h r (List.mem_cons_of_mem _ hr)
    cases e <;> simp_all [EddNode.el, EddElem.isRule, eddComponentPathsAll, eddComponentPaths]

theorem eddPathNames_rules {l k : List EddNode} (h : ∀ r ∈ l, r.el.isRule = true) : eddPathNames (l ++ k) = eddPathNames k := by
  rw [eddPathNames, eddPathNames, eddDirectPaths_rules h, eddComponentPathsAll_rules h]

theorem eddDirectConfs_rules : ∀ {l k : List EddNode}, (∀ r ∈ l, r.el.isRule = true) → eddDirectConfs (l ++ k) = eddDirectConfs k
  | [], k, _ => rfl
  | .mk e ks :: l, k, h => by
    have he := h _ (List.mem_cons_self ..)
    have ih := eddDirectConfs_rules (l := l) (k := k) fun r hr => h r (List.mem_cons_of_mem _ hr)
    cases e <;> simp_all [EddNode.el, EddElem.isRule, eddDirectConfs]

theorem eddGroupConfsAll_rules : ∀ {l k : List EddNode}, (∀ r ∈ l, r.el.isRule = true) →
    eddGroupConfsAll (l ++ k) = eddGroupConfsAll k
  | [], k, _ => rfl
  | .mk e ks :: l, k, h => by
    have he := h _ (List.mem_cons_self ..)
    have ih := eddGroupConfsAll_rules (l := l) (k := k) fun r hr => h r (List.mem_cons_of_mem _ hr)
    cases e <;> simp_all [EddNode.el, EddElem.isRule, eddGroupConfsAll, eddGroupConfs]

theorem eddConfElements_rules {l k : List EddNode} (h : ∀ r ∈ l, r.el.isRule = true) : eddConfElements (l ++ k) = eddConfElements k := by
  rw [eddConfElements, eddConfElements, eddDirectConfs_rules h, eddGroupConfsAll_rules h]

theorem eddConfsAll_rules (d : Str) (aw : Bool) : ∀ {l k : List EddNode}, (∀ r ∈ l, r.el.isRule = true) →
    eddConfsAll d aw (l ++ k) = eddConfsAll d aw k
  | [], k, _ => rfl
  | .mk e ks :: l, k, h => by
    have he := h _ (List.mem_cons_self ..)
    rw [List.cons_append, eddConfsAll, eddConfsAll_rules d aw fun r hr => h r (List.mem_cons_of_mem _ hr)]
    cases e <;> simp_all [EddNode.el, EddElem.isRule, eddConfs, eddAppend_nil]

theorem eddTranslateAll_rules : ∀ {l k : List EddNode}, (∀ r ∈ l, r.el.isRule = true) → eddTranslateAll (l ++ k) = eddTranslateAll k
  | [], k, _ => rfl
  | .mk e ks :: l, k, h => by
    have he := h _ (List.mem_cons_self ..)
    rw [List.cons_append, eddTranslateAll, eddTranslateAll_rules fun r hr => h r (List.mem_cons_of_mem _ hr)]
    cases e <;> simp_all [EddNode.el, EddElem.isRule, eddTranslate, eddAppend_nil]

theorem eddUndefinedAll_rules : ∀ {l k : List EddNode}, (∀ r ∈ l, r.el.isRule = true) → eddUndefinedAll (l ++ k) = eddUndefinedAll k
  | [], k, _ => rfl
  | .mk e ks :: l, k, h => by
    have he := h _ (List.mem_cons_self ..)
    rw [List.cons_append, eddUndefinedAll, eddUndefinedAll_rules fun r hr => h r (List.mem_cons_of_mem _ hr)]
    cases e <;> simp_all [EddNode.el, EddElem.isRule, eddUndefined]

/-! ## The context along siblings -/

/-- What siblings see after an element. -/
def eddAfter (ctx : EddCtx) (n : EddNode) : EddCtx :=
  match n.el with
  | .confGroup m => ctx.withGroup m n.kids
  | _ => ctx

theorem eddPropagate_ctx (ctx : EddCtx) (n : EddNode) : (eddPropagate ctx n).1 = eddAfter ctx n := by
  obtain ⟨e, k⟩ := n
  cases e <;> simp [eddPropagate, eddAfter, EddNode.el, EddNode.kids]

@[simp] theorem eddAfter_paths (ctx : EddCtx) (n : EddNode) : (eddAfter ctx n).paths = ctx.paths := by
  unfold eddAfter; split <;> rfl
@[simp] theorem eddAfter_confs (ctx : EddCtx) (n : EddNode) : (eddAfter ctx n).confs = ctx.confs := by
  unfold eddAfter; split <;> rfl
@[simp] theorem eddAfter_rules (ctx : EddCtx) (n : EddNode) : (eddAfter ctx n).rules = ctx.rules := by
  unfold eddAfter; split <;> rfl
@[simp] theorem eddAfter_domains (ctx : EddCtx) (n : EddNode) : (eddAfter ctx n).domains = ctx.domains := by
  unfold eddAfter; split <;> rfl

theorem eddPropagateAll_cons (ctx : EddCtx) (k : EddNode) (ks : List EddNode) :
    (eddPropagateAll ctx (k :: ks)).2 = (eddPropagate ctx k).2 :: (eddPropagateAll (eddAfter ctx k) ks).2 := by
  rw [eddPropagateAll, eddPropagate_ctx]

theorem eddPropagateAll_nil (ctx : EddCtx) : (eddPropagateAll ctx []).2 = [] := by rw [eddPropagateAll]

/-- A rule is left as it is. -/
theorem eddPropagate_rule (ctx : EddCtx) {n : EddNode} (h : n.el.isRule = true) : (eddPropagate ctx n).2 = n := by
  obtain ⟨e, k⟩ := n
  cases e <;> simp_all [EddNode.el, EddElem.isRule, eddPropagate]

/-- The kind of an element is kept. -/
theorem eddPropagate_isRule (ctx : EddCtx) (n : EddNode) : (eddPropagate ctx n).2.el.isRule = n.el.isRule := by
  obtain ⟨e, k⟩ := n
  cases e <;> simp [EddNode.el, EddElem.isRule, eddPropagate]

theorem eddRules_propagateAll : ∀ (ctx : EddCtx) (ks : List EddNode), eddRules (eddPropagateAll ctx ks).2 = eddRules ks
  | ctx, [] => by rw [eddPropagateAll_nil]
  | ctx, k :: ks => by
    rw [eddPropagateAll_cons]
    have ih := eddRules_propagateAll (eddAfter ctx k) ks
    unfold eddRules at ih ⊢
    rw [List.filter_cons, List.filter_cons, eddPropagate_isRule, ih]
    split
    · next h => rw [eddPropagate_rule ctx h]
    · rfl

/-! ## Paths -/

mutual
theorem eddParams_propagate (d c : Str) : ∀ (n : EddNode) (ctx : EddCtx), eddParams d c (eddPropagate ctx n).2 =
    (eddPathLinesOf n).map fun l => [s "setConfigurationParameter", d, c, pyJoin (s "/") (ctx.paths ++ l.1), l.2]
  | .mk (.path n v) k, ctx => by simp [eddPropagate, eddParams, eddPathLinesOf]
  | .mk (.component n) k, ctx => by
    simp only [eddPropagate, eddParams, eddPathLinesOf]
    rw [eddParamsAll_propagate d c k (ctx.inComponent n)]
    simp [EddCtx.inComponent, Function.comp_def]
  | .mk .root k, ctx => by simp [eddPropagate, eddParams, eddPathLinesOf]
  | .mk (.domain _ _) k, ctx => by simp [eddPropagate, eddParams, eddPathLinesOf]
  | .mk (.domainGroup _ _) k, ctx => by simp [eddPropagate, eddParams, eddPathLinesOf]
  | .mk (.conf _) k, ctx => by simp [eddPropagate, eddParams, eddPathLinesOf]
  | .mk (.confGroup _) k, ctx => by simp [eddPropagate, eddParams, eddPathLinesOf]
  | .mk (.operator _) k, ctx => by simp [eddPropagate, eddParams, eddPathLinesOf]
  | .mk (.rule _ _ _) k, ctx => by simp [eddPropagate, eddParams, eddPathLinesOf]
theorem eddParamsAll_propagate (d c : Str) : ∀ (ks : List EddNode) (ctx : EddCtx), eddParamsAll d c (eddPropagateAll ctx ks).2 =
    (eddPathLines ks).map fun l => [s "setConfigurationParameter", d, c, pyJoin (s "/") (ctx.paths ++ l.1), l.2]
  | [], ctx => by rw [eddPropagateAll_nil]; simp [eddParamsAll, eddPathLines]
  | k :: ks, ctx => by
    rw [eddPropagateAll_cons, eddParamsAll, eddPathLines, eddParams_propagate d c k, eddParamsAll_propagate d c ks]
    simp
end

/-- The names of paths in the order of sequences. -/
def eddDirectOrder : List EddNode → List (List Str)
  | [] => []
  | .mk (.path n _) _ :: ks => [n] :: eddDirectOrder ks
  | _ :: ks => eddDirectOrder ks

mutual
def eddComponentOrder : EddNode → List (List Str)
  | .mk (.component n) kids => (eddDirectOrder kids ++ eddComponentOrderAll kids).map (n :: ·)
  | _ => []
def eddComponentOrderAll : List EddNode → List (List Str)
  | [] => []
  | k :: ks => eddComponentOrder k ++ eddComponentOrderAll ks
end

def eddPathOrder (kids : List EddNode) : List (List Str) := eddDirectOrder kids ++ eddComponentOrderAll kids

theorem eddDirectPaths_propagate : ∀ (ks : List EddNode) (ctx : EddCtx), eddDirectPaths (eddPropagateAll ctx ks).2 =
    (eddDirectOrder ks).map fun l => pyJoin (s "/") (ctx.paths ++ l)
  | [], ctx => by rw [eddPropagateAll_nil]; simp [eddDirectPaths, eddDirectOrder]
  | .mk e k :: ks, ctx => by
    rw [eddPropagateAll_cons]
    have ih := eddDirectPaths_propagate ks (eddAfter ctx (.mk e k))
    cases e <;> simp [eddPropagate, eddDirectPaths, eddDirectOrder, ih]

mutual
theorem eddComponentPaths_propagate : ∀ (n : EddNode) (ctx : EddCtx), eddComponentPaths (eddPropagate ctx n).2 =
    (eddComponentOrder n).map fun l => pyJoin (s "/") (ctx.paths ++ l)
  | .mk (.component n) k, ctx => by
    simp only [eddPropagate, eddComponentPaths, eddComponentOrder]
    rw [eddDirectPaths_propagate, eddComponentPathsAll_propagate k (ctx.inComponent n)]
    simp [EddCtx.inComponent, Function.comp_def]
  | .mk .root k, ctx => by simp [eddPropagate, eddComponentPaths, eddComponentOrder]
  | .mk (.path _ _) k, ctx => by simp [eddPropagate, eddComponentPaths, eddComponentOrder]
  | .mk (.domain _ _) k, ctx => by simp [eddPropagate, eddComponentPaths, eddComponentOrder]
  | .mk (.domainGroup _ _) k, ctx => by simp [eddPropagate, eddComponentPaths, eddComponentOrder]
  | .mk (.conf _) k, ctx => by simp [eddPropagate, eddComponentPaths, eddComponentOrder]
  | .mk (.confGroup _) k, ctx => by simp [eddPropagate, eddComponentPaths, eddComponentOrder]
  | .mk (.operator _) k, ctx => by simp [eddPropagate, eddComponentPaths, eddComponentOrder]
  | .mk (.rule _ _ _) k, ctx => by simp [eddPropagate, eddComponentPaths, eddComponentOrder]
theorem eddComponentPathsAll_propagate : ∀ (ks : List EddNode) (ctx : EddCtx), eddComponentPathsAll (eddPropagateAll ctx ks).2 =
    (eddComponentOrderAll ks).map fun l => pyJoin (s "/") (ctx.paths ++ l)
  | [], ctx => by rw [eddPropagateAll_nil]; simp [eddComponentPathsAll, eddComponentOrderAll]
  | k :: ks, ctx => by
    rw [eddPropagateAll_cons, eddComponentPathsAll, eddComponentOrderAll, eddComponentPaths_propagate k,
      eddComponentPathsAll_propagate ks]
    simp
end

theorem eddPathNames_propagate (ks : List EddNode) (ctx : EddCtx) : eddPathNames (eddPropagateAll ctx ks).2 =
    (eddPathOrder ks).map fun l => pyJoin (s "/") (ctx.paths ++ l) := by
  rw [eddPathNames, eddDirectPaths_propagate, eddComponentPathsAll_propagate, eddPathOrder, List.map_append]

mutual
theorem eddComponentOrder_perm : ∀ n : EddNode, n.el.isRule = n.el.isRule →
    (match n with | .mk (.path _ _) _ => True | _ => (eddComponentOrder n).Perm ((eddPathLinesOf n).map (·.1)))
  | .mk (.component n) k, _ => by
    simp only [eddComponentOrder, eddPathLinesOf, List.map_map]
    have := (eddPathOrder_perm k).map (n :: ·)
    simpa [eddPathOrder, Function.comp_def] using this
  | .mk (.path _ _) k, _ => trivial
  | .mk .root k, _ => by simp [eddComponentOrder, eddPathLinesOf]
  | .mk (.domain _ _) k, _ => by simp [eddComponentOrder, eddPathLinesOf]
  | .mk (.domainGroup _ _) k, _ => by simp [eddComponentOrder, eddPathLinesOf]
  | .mk (.conf _) k, _ => by simp [eddComponentOrder, eddPathLinesOf]
  | .mk (.confGroup _) k, _ => by simp [eddComponentOrder, eddPathLinesOf]
  | .mk (.operator _) k, _ => by simp [eddComponentOrder, eddPathLinesOf]
  | .mk (.rule _ _ _) k, _ => by simp [eddComponentOrder, eddPathLinesOf]
theorem eddPathOrder_perm : ∀ ks : List EddNode, (eddPathOrder ks).Perm ((eddPathLines ks).map (·.1))
  | [] => by simp [eddPathOrder, eddDirectOrder, eddComponentOrderAll, eddPathLines]
  | .mk e k :: ks => by
    have ih := eddPathOrder_perm ks
    have hk := eddComponentOrder_perm (.mk e k) rfl
    cases e
    case path n v =>
      simpa [eddPathOrder, eddDirectOrder, eddComponentOrderAll, eddComponentOrder, eddPathLines, eddPathLinesOf] using ih
    all_goals
      simp only [eddPathOrder, eddDirectOrder, eddComponentOrderAll, eddPathLines, List.map_append] at ih hk ⊢
      exact ((List.perm_append_comm_assoc _ _ _).trans (hk.append ih))
end

@[simp] theorem EddNode.el_mk (e : EddElem) (k : List EddNode) : (EddNode.mk e k).el = e := rfl
@[simp] theorem EddNode.kids_mk (e : EddElem) (k : List EddNode) : (EddNode.mk e k).kids = k := rfl
@[simp] theorem EddElem.name_conf (n : Str) : (EddElem.conf n).name = n := rfl
@[simp] theorem EddElem.name_confGroup (n : Str) : (EddElem.confGroup n).name = n := rfl
@[simp] theorem EddElem.name_domain (n : Str) (a : Bool) : (EddElem.domain n a).name = n := rfl
@[simp] theorem EddElem.name_domainGroup (n : Str) (a : Bool) : (EddElem.domainGroup n a).name = n := rfl
@[simp] theorem EddElem.aware_domain (n : Str) (a : Bool) : (EddElem.domain n a).aware = a := rfl
@[simp] theorem EddElem.aware_domainGroup (n : Str) (a : Bool) : (EddElem.domainGroup n a).aware = a := rfl
@[simp] theorem EddElem.isConf_conf (n : Str) : (EddElem.conf n).isConf = true := rfl
@[simp] theorem EddElem.isConf_confGroup (n : Str) : (EddElem.confGroup n).isConf = false := rfl
@[simp] theorem EddElem.isConfGroup_conf (n : Str) : (EddElem.conf n).isConfGroup = false := rfl
@[simp] theorem EddElem.isConfGroup_confGroup (n : Str) : (EddElem.confGroup n).isConfGroup = true := rfl
@[simp] theorem EddElem.isConf_domain (n : Str) (a : Bool) : (EddElem.domain n a).isConf = false := rfl
@[simp] theorem EddElem.isConf_domainGroup (n : Str) (a : Bool) : (EddElem.domainGroup n a).isConf = false := rfl
@[simp] theorem EddElem.isConfGroup_domain (n : Str) (a : Bool) : (EddElem.domain n a).isConfGroup = false := rfl
@[simp] theorem EddElem.isConfGroup_domainGroup (n : Str) (a : Bool) : (EddElem.domainGroup n a).isConfGroup = false := rfl

/-! ## Configurations -/

/-- A group of configurations, as contexts hold it. -/
def eddGroupOf (n : EddNode) : Str × List EddNode := (n.el.name, eddRules n.kids)

/-- The commands for a configuration. -/
def eddBlock (d : Str) (aw : Bool) (names : List Str) (rules : List EddNode) (paths : List Str) (kids : List EddNode) :
    Option (List EddCmd) :=
  match eddRuleString rules with
  | none => none
  | some t =>
    some ([[s "createConfiguration", d, pyJoin (s ".") names], [s "setRule", d, pyJoin (s ".") names, t]] ++
      (if aw then [[s "setElementSequence", d, pyJoin (s ".") names] ++ (eddPathOrder kids).map fun l => pyJoin (s "/") (paths ++ l)]
        else []) ++
      (eddPathLines kids).map fun l =>
        [s "setConfigurationParameter", d, pyJoin (s ".") names, pyJoin (s "/") (paths ++ l.1), l.2])

def eddConfRes (d : Str) (aw : Bool) (ctx : EddCtx) (scope : List EddNode) (x : EddChain × (List EddNode × EddNode)) :
    Option (List EddCmd) :=
  eddBlock d aw (ctx.confs ++ (x.1 ++ [x.2]).map fun y => y.2.el.name) (ctx.rules ++ eddRulesAlong scope (x.1 ++ [x.2])) ctx.paths
    x.2.2.kids

theorem eddComposed_eq {ctx : EddCtx} {scope : List EddNode} (h : ctx.groups = scope.map eddGroupOf) (n : Str) :
    ctx.composed n = (scope.filter fun g => g.el.name == n).flatMap eddOwnRules := by
  unfold EddCtx.composed
  rw [h]
  induction scope generalizing ctx with
  | nil => rfl
  | cons g gs ih =>
    have ih' := ih (ctx := { ctx with groups := gs.map eddGroupOf }) rfl
    simp only [List.map_cons, List.filter_cons] at ih' ⊢
    by_cases hn : g.el.name = n
    · simp [eddGroupOf, hn, ih']
      rfl
    · simp [eddGroupOf, hn, ih']

theorem eddComposed_isRule {ctx : EddCtx} {scope : List EddNode} (h : ctx.groups = scope.map eddGroupOf) (n : Str) :
    ∀ r ∈ ctx.composed n, r.el.isRule = true := by
  rw [eddComposed_eq h]
  intro r hr
  obtain ⟨g, _, hr⟩ := List.mem_flatMap.1 hr
  exact (List.mem_filter.1 hr).2

theorem eddAfter_groups {ctx : EddCtx} {scope pre : List EddNode} (n : EddNode)
    (h : ctx.groups = (scope ++ pre.filter fun k => k.el.isConfGroup).map eddGroupOf) :
    (eddAfter ctx n).groups = (scope ++ (pre ++ [n]).filter fun k => k.el.isConfGroup).map eddGroupOf := by
  obtain ⟨e, k⟩ := n
  cases e <;>
    simp [eddAfter, h, EddElem.isConfGroup, EddCtx.withGroup, eddGroupOf, List.filter_cons]

mutual
theorem eddConfs_propagate (d : Str) (aw : Bool) : ∀ (n : EddNode) (pre scope : List EddNode) (ctx : EddCtx),
    ctx.groups = (scope ++ pre.filter fun k => k.el.isConfGroup).map eddGroupOf → (∀ r ∈ ctx.rules, r.el.isRule = true) →
    eddConfs d aw (eddPropagate ctx n).2 = eddSeq ((eddConfChain pre n).map (eddConfRes d aw ctx scope))
  | .mk (.conf c) k, pre, scope, ctx, hg, hr => by
    have hc := eddComposed_isRule hg c
    have hrc : ∀ r ∈ ctx.rules ++ ctx.composed c, r.el.isRule = true := by
      intro r h; rcases List.mem_append.1 h with h | h
      · exact hr r h
      · exact hc r h
    have e1 : eddRuleString (ctx.rules ++ ctx.composed c ++ (eddPropagateAll (ctx.inConf c (ctx.composed c) k) k).2) =
        eddRuleString (ctx.rules ++ eddRulesAlong scope [(pre, .mk (.conf c) k)]) := by
      have e2 : eddRulesAlong scope [(pre, .mk (.conf c) k)] = ctx.composed c ++ eddRules k := by
        rw [eddComposed_eq hg]
        simp [eddRulesAlong, eddOwnRules, eddRules]
      have e3 : ∀ l l' : List EddNode, eddRules l = eddRules l' → eddRuleString l = eddRuleString l' := by
        intro l l' h; unfold eddRuleString; rw [h]
      apply e3
      rw [e2, eddRules_append, eddRules_propagateAll, ← List.append_assoc, eddRules_append _ (eddRules k),
        eddRules_of_all eddRules_isRule]
    simp only [eddPropagate, eddConfs, eddConfChain, List.map_cons, List.map_nil, eddSeq]
    rw [eddConf, ← List.append_assoc, e1, eddPathNames_rules hrc, eddParamsAll_rules _ _ hrc, eddPathNames_propagate,
      eddParamsAll_propagate]
    simp only [eddConfRes, eddBlock, EddCtx.inConf, List.nil_append, List.map_cons, List.map_nil]
    cases eddRuleString (ctx.rules ++ eddRulesAlong scope [(pre, .mk (.conf c) k)]) with
    | none => rfl
    | some t => simp [eddAppend]
  | .mk (.confGroup g) k, pre, scope, ctx, hg, hr => by
    have hc := eddComposed_isRule hg g
    have hrc : ∀ r ∈ ctx.rules ++ ctx.composed g, r.el.isRule = true := by
      intro r h; rcases List.mem_append.1 h with h | h
      · exact hr r h
      · exact hc r h
    simp only [eddPropagate, eddConfs, eddConfChain, List.map_map]
    rw [← List.append_assoc, eddConfsAll_rules d aw hrc]
    rw [eddConfsAll_propagate d aw k [] ((scope ++ pre.filter fun k => k.el.isConfGroup) ++ [.mk (.confGroup g) k]) _ (by
      simp [EddCtx.inConf, EddCtx.withGroup, hg, eddGroupOf]) (by
      intro r h
      simp only [EddCtx.inConf, EddCtx.withGroup, ← List.append_assoc] at h
      rcases List.mem_append.1 h with h | h
      · exact hrc r h
      · exact eddRules_isRule r h)]
    congr 1
    apply List.map_congr_left
    rintro ⟨gs, c⟩ _
    simp only [Function.comp_apply, eddConfRes, EddCtx.inConf, EddCtx.withGroup, List.cons_append, List.map_cons, List.append_assoc, List.nil_append, eddRulesAlong, EddNode.el_mk, EddElem.name_confGroup]
    rw [eddComposed_eq hg]
    simp [eddOwnRules, eddRules]
  | .mk .root k, pre, scope, ctx, _, _ => by simp [eddPropagate, eddConfs, eddConfChain, eddSeq]
  | .mk (.domain _ _) k, pre, scope, ctx, _, _ => by simp [eddPropagate, eddConfs, eddConfChain, eddSeq]
  | .mk (.domainGroup _ _) k, pre, scope, ctx, _, _ => by simp [eddPropagate, eddConfs, eddConfChain, eddSeq]
  | .mk (.path _ _) k, pre, scope, ctx, _, _ => by simp [eddPropagate, eddConfs, eddConfChain, eddSeq]
  | .mk (.component _) k, pre, scope, ctx, _, _ => by simp [eddPropagate, eddConfs, eddConfChain, eddSeq]
  | .mk (.operator _) k, pre, scope, ctx, _, _ => by simp [eddPropagate, eddConfs, eddConfChain, eddSeq]
  | .mk (.rule _ _ _) k, pre, scope, ctx, _, _ => by simp [eddPropagate, eddConfs, eddConfChain, eddSeq]
theorem eddConfsAll_propagate (d : Str) (aw : Bool) : ∀ (ks pre scope : List EddNode) (ctx : EddCtx),
    ctx.groups = (scope ++ pre.filter fun k => k.el.isConfGroup).map eddGroupOf → (∀ r ∈ ctx.rules, r.el.isRule = true) →
    eddConfsAll d aw (eddPropagateAll ctx ks).2 = eddSeq ((eddConfChains pre ks).map (eddConfRes d aw ctx scope))
  | [], pre, scope, ctx, _, _ => by rw [eddPropagateAll_nil]; simp [eddConfsAll, eddConfChains, eddSeq]
  | k :: ks, pre, scope, ctx, hg, hr => by
    rw [eddPropagateAll_cons, eddConfsAll, eddConfChains, List.map_append, eddSeq_append, eddConfs_propagate d aw k pre scope ctx hg hr,
      eddConfsAll_propagate d aw ks (pre ++ [k]) scope _ (eddAfter_groups k hg) (by simpa using hr)]
    congr 2
    apply List.map_congr_left
    intro x _
    simp [eddConfRes]
end

/-! ## The elements of domains -/

theorem eddDirectConfs_cons_of_not {e : EddElem} (h : e.isConf = false) (k ks : List EddNode) :
    eddDirectConfs (.mk e k :: ks) = eddDirectConfs ks := by
  cases e <;> simp_all [ eddDirectConfs]

mutual
theorem eddGroupConfs_perm : ∀ (n : EddNode) (pre scope : List EddNode) (ctx : EddCtx), n.el.isConf = false →
    ctx.groups = scope.map eddGroupOf → (∀ r ∈ ctx.rules, r.el.isRule = true) →
    (eddGroupConfs (eddPropagate ctx n).2).Perm ((eddConfChain pre n).map fun x => (eddPathOrder x.2.2.kids).map fun l =>
      pyJoin (s "/") (ctx.paths ++ l))
  | .mk (.confGroup g) k, pre, scope, ctx, _, hg, hr => by
    have hc := eddComposed_isRule hg g
    have hrc : ∀ r ∈ ctx.rules ++ ctx.composed g, r.el.isRule = true := by
      intro r h; rcases List.mem_append.1 h with h | h
      · exact hr r h
      · exact hc r h
    have ih := eddConfElements_perm k [] (scope ++ [.mk (.confGroup g) k])
      ((ctx.withGroup g k).inConf g (ctx.composed g) k) (by
        simp [EddCtx.inConf, EddCtx.withGroup, hg, eddGroupOf]) (by
      intro r h
      simp only [EddCtx.inConf, EddCtx.withGroup, ← List.append_assoc] at h
      rcases List.mem_append.1 h with h | h
      · exact hrc r h
      · exact eddRules_isRule r h)
    simp only [eddPropagate, eddGroupConfs, eddConfChain, List.map_map]
    rw [← List.append_assoc, eddDirectConfs_rules hrc, eddGroupConfsAll_rules hrc]
    exact ih
  | .mk (.conf _) k, _, _, _, h, _, _ => by simp [EddElem.isConf] at h
  | .mk .root k, pre, scope, ctx, _, _, _ => by simp [eddPropagate, eddGroupConfs, eddConfChain]
  | .mk (.domain _ _) k, pre, scope, ctx, _, _, _ => by simp [eddPropagate, eddGroupConfs, eddConfChain]
  | .mk (.domainGroup _ _) k, pre, scope, ctx, _, _, _ => by simp [eddPropagate, eddGroupConfs, eddConfChain]
  | .mk (.path _ _) k, pre, scope, ctx, _, _, _ => by simp [eddPropagate, eddGroupConfs, eddConfChain]
  | .mk (.component _) k, pre, scope, ctx, _, _, _ => by simp [eddPropagate, eddGroupConfs, eddConfChain]
  | .mk (.operator _) k, pre, scope, ctx, _, _, _ => by simp [eddPropagate, eddGroupConfs, eddConfChain]
  | .mk (.rule _ _ _) k, pre, scope, ctx, _, _, _ => by simp [eddPropagate, eddGroupConfs, eddConfChain]
theorem eddConfElements_perm : ∀ (ks pre scope : List EddNode) (ctx : EddCtx), ctx.groups = scope.map eddGroupOf →
    (∀ r ∈ ctx.rules, r.el.isRule = true) →
    (eddConfElements (eddPropagateAll ctx ks).2).Perm ((eddConfChains pre ks).map fun x => (eddPathOrder x.2.2.kids).map fun l =>
      pyJoin (s "/") (ctx.paths ++ l))
  | [], pre, scope, ctx, _, _ => by
    rw [eddPropagateAll_nil]; simp [eddConfElements, eddDirectConfs, eddGroupConfsAll, eddConfChains]
  | .mk e k :: ks, pre, scope, ctx, hg, hr => by
    obtain ⟨scope', hg'⟩ : ∃ scope' : List EddNode, (eddAfter ctx (.mk e k)).groups = scope'.map eddGroupOf :=
      ⟨_, eddAfter_groups (scope := scope) (pre := []) (.mk e k) (by simpa using hg)⟩
    have ih := eddConfElements_perm ks (pre ++ [.mk e k]) scope' (eddAfter ctx (.mk e k)) hg' (by simpa using hr)
    simp only [eddAfter_paths] at ih
    rw [eddPropagateAll_cons, eddConfChains, List.map_append]
    by_cases hconf : e.isConf = true
    · obtain ⟨c, rfl⟩ : ∃ c, e = .conf c := by cases e <;> simp_all [EddElem.isConf]
      have hc := eddComposed_isRule hg c
      have hrc : ∀ r ∈ ctx.rules ++ ctx.composed c, r.el.isRule = true := by
        intro r h; rcases List.mem_append.1 h with h | h
        · exact hr r h
        · exact hc r h
      simp only [eddPropagate, eddConfElements, eddDirectConfs, eddGroupConfsAll, eddGroupConfs, eddConfChain, List.nil_append,
        List.map_cons, List.map_nil, List.cons_append]
      rw [← List.append_assoc, eddPathNames_rules hrc, eddPathNames_propagate]
      exact List.Perm.cons _ ih
    · have hconf' : e.isConf = false := by simpa using hconf
      have hk := eddGroupConfs_perm (.mk e k) pre scope ctx hconf' hg hr
      have e0 : eddDirectConfs ((eddPropagate ctx (.mk e k)).2 :: (eddPropagateAll (eddAfter ctx (.mk e k)) ks).2) =
          eddDirectConfs (eddPropagateAll (eddAfter ctx (.mk e k)) ks).2 := by
        cases e <;> simp_all [ eddPropagate, eddDirectConfs]
      rw [eddConfElements, e0, eddGroupConfsAll]
      exact (List.perm_append_comm_assoc _ _ _).trans (hk.append ih)
end

theorem pyInsert_perm (w : Str) : ∀ l, (pyInsert w l).Perm (w :: l)
  | [] => .refl _
  | x :: xs => by
    rw [pyInsert]; split
    · exact .refl _
    · exact ((pyInsert_perm w xs).cons x).trans (.swap ..)

theorem pySort_perm : ∀ l, (pySort l).Perm l
  | [] => .refl _
  | w :: ws => (pyInsert_perm w _).trans ((pySort_perm ws).cons w)

theorem eddUnicity_perm {kids : List EddNode} (h : eddUnicity kids = true) {a b : List Str} (ha : a ∈ eddConfElements kids)
    (hb : b ∈ eddConfElements kids) : a.Perm b := by
  unfold eddUnicity at h
  cases e : eddConfElements kids with
  | nil => rw [e] at ha; simp at ha
  | cons first others =>
    rw [e] at h ha hb
    simp only [List.all_eq_true, beq_iff_eq] at h
    have key : ∀ x ∈ first :: others, x.Perm first := by
      intro x hx
      rcases List.mem_cons.1 hx with rfl | hx
      · exact .refl _
      · exact (pySort_perm x).symm.trans ((h x hx) ▸ pySort_perm first)
    exact (key a ha).trans (key b hb).symm

/-! ## Domains -/

/-- What is known of the elements of a domain: they are, up to the order, those of each configuration. -/
def EddHead (d : EddNode) (head : List Str) : Prop :=
  (eddConfChains [] d.kids = [] → head = []) ∧
    ∀ x ∈ eddConfChains [] d.kids, head.Perm ((eddPathOrder x.2.2.kids).map (pyJoin (s "/")))

/-- The commands for a domain. -/
def eddDomRes (head : List Str) (domains : List (Str × Bool)) (rules scope : List EddNode)
    (x : EddChain × (List EddNode × EddNode)) : Option (List EddCmd) :=
  let all := domains ++ (x.1 ++ [x.2]).map fun y => (y.2.el.name, y.2.el.aware)
  let d := pyJoin (s ".") (all.map (·.1))
  let aw := all.any (·.2)
  eddAppend (some ([[s "createDomain", d]] ++ (if aw then [[s "setSequenceAwareness", d, s "true"]] else []) ++
      head.map fun p => [s "addElement", d, p]))
    (eddSeq ((eddConfChains [] x.2.2.kids).map fun y =>
      eddBlock d aw ((y.1 ++ [y.2]).map fun z => z.2.el.name) (rules ++ eddRulesAlong scope (x.1 ++ x.2 :: (y.1 ++ [y.2]))) [] y.2.2.kids))

/-- The commands for some domains: one list for each, with elements that are as they must be. -/
inductive EddDomsRes (domains : List (Str × Bool)) (rules scope : List EddNode) :
    List (EddChain × (List EddNode × EddNode)) → Option (List EddCmd) → Prop
  | nil : EddDomsRes domains rules scope [] (some [])
  | cons {x xs head r} : EddHead x.2.2 head → EddDomsRes domains rules scope xs r →
      EddDomsRes domains rules scope (x :: xs) (eddAppend (eddDomRes head domains rules scope x) r)

theorem EddDomsRes.append {domains : List (Str × Bool)} {rules scope : List EddNode} {xs ys : List (EddChain × (List EddNode × EddNode))}
    {a b : Option (List EddCmd)} (hx : EddDomsRes domains rules scope xs a) (hy : EddDomsRes domains rules scope ys b) :
    EddDomsRes domains rules scope (xs ++ ys) (eddAppend a b) := by
  induction hx with
  | nil => simpa [eddAppend_nil] using hy
  | cons hh _ ih => rw [eddAppend_assoc]; exact .cons hh ih

theorem EddDomsRes.map {domains domains' : List (Str × Bool)} {rules rules' scope scope' : List EddNode}
    {f : EddChain × (List EddNode × EddNode) → EddChain × (List EddNode × EddNode)}
    {xs : List (EddChain × (List EddNode × EddNode))} {a : Option (List EddCmd)} (hx : EddDomsRes domains rules scope xs a)
    (hf : ∀ x, (f x).2 = x.2) (he : ∀ head x, eddDomRes head domains rules scope x = eddDomRes head domains' rules' scope' (f x)) :
    EddDomsRes domains' rules' scope' (xs.map f) a := by
  induction hx with
  | nil => exact .nil
  | @cons x xs head r hh _ ih =>
    rw [he]
    exact .cons (by rw [hf]; exact hh) ih

mutual
theorem eddTranslate_propagate : ∀ (n : EddNode) (pre scope : List EddNode) (ctx : EddCtx),
    ctx.groups = (scope ++ pre.filter fun k => k.el.isConfGroup).map eddGroupOf → (∀ r ∈ ctx.rules, r.el.isRule = true) →
    ctx.confs = [] → ctx.paths = [] → eddUndefined (eddPropagate ctx n).2 = none →
    EddDomsRes ctx.domains ctx.rules scope (eddDomChain pre n) (eddTranslate (eddPropagate ctx n).2)
  | .mk (.domain m a) k, pre, scope, ctx, hg, hr, hcf, hp, hu => by
    have hr' : ∀ r ∈ (ctx.inDomain m a k).rules, r.el.isRule = true := by
      intro r h
      simp only [EddCtx.inDomain] at h
      rcases List.mem_append.1 h with h | h
      · exact hr r h
      · exact eddRules_isRule r h
    have hg' : (ctx.inDomain m a k).groups = (scope ++ pre.filter fun k => k.el.isConfGroup).map eddGroupOf := hg
    simp only [eddPropagate, eddUndefined] at hu
    have hun : eddUnicity (ctx.rules ++ (eddPropagateAll (ctx.inDomain m a k) k).2) = true := by
      cases h1 : eddUndefinedAll (ctx.rules ++ (eddPropagateAll (ctx.inDomain m a k) k).2) with
      | some d => rw [h1] at hu; simp at hu
      | none =>
        rw [h1] at hu
        simp only at hu
        split at hu
        · assumption
        · simp at hu
    have hperm := eddConfElements_perm k [] _ (ctx.inDomain m a k) hg' hr'
    have hpaths : (ctx.inDomain m a k).paths = [] := hp
    simp only [hpaths, List.nil_append] at hperm
    have hel := eddConfElements_rules (k := (eddPropagateAll (ctx.inDomain m a k) k).2) hr
    have hhead : EddHead (.mk (.domain m a) k)
        ((eddConfElements (ctx.rules ++ (eddPropagateAll (ctx.inDomain m a k) k).2)).head?.getD []) := by
      refine ⟨fun h0 => ?_, fun x hx => ?_⟩
      · simp only [EddNode.kids] at h0
        rw [h0] at hperm
        have : eddConfElements (eddPropagateAll (ctx.inDomain m a k) k).2 = [] := by
          simpa using hperm
        rw [hel, this]; rfl
      · have hx' : (eddPathOrder x.2.2.kids).map (pyJoin (s "/")) ∈ eddConfElements (ctx.rules ++ (eddPropagateAll (ctx.inDomain m a k) k).2) := by
          rw [hel]
          exact hperm.mem_iff.2 (List.mem_map.2 ⟨x, hx, rfl⟩)
        refine eddUnicity_perm hun ?_ hx'
        cases h1 : eddConfElements (ctx.rules ++ (eddPropagateAll (ctx.inDomain m a k) k).2) with
        | nil => rw [h1] at hx'; simp at hx'
        | cons y ys => simp
    have e : eddTranslate (eddPropagate ctx (.mk (.domain m a) k)).2 =
        eddAppend (eddDomRes ((eddConfElements (ctx.rules ++ (eddPropagateAll (ctx.inDomain m a k) k).2)).head?.getD []) ctx.domains
          ctx.rules scope ([], (pre, .mk (.domain m a) k))) (some []) := by
      simp only [eddPropagate, eddTranslate, eddDomain, eddDomRes]
      rw [eddConfsAll_rules _ _ hr, eddConfsAll_propagate _ _ k [] (scope ++ pre.filter fun k => k.el.isConfGroup) _ (by simpa using hg') hr',
        eddAppend_assoc]
      congr 1
      have e2 : ∀ o : Option (List EddCmd), eddAppend o (some []) = o := by intro o; cases o <;> simp [eddAppend]
      rw [e2]
      congr 1
      apply List.map_congr_left
      rintro ⟨gs, c⟩ _
      simp [eddConfRes, EddCtx.inDomain, hcf, hp, eddRulesAlong, eddOwnRules, eddRules]
    rw [e]
    exact .cons hhead .nil
  | .mk (.domainGroup m a) k, pre, scope, ctx, hg, hr, hcf, hp, hu => by
    have hr' : ∀ r ∈ (ctx.inDomain m a k).rules, r.el.isRule = true := by
      intro r h
      simp only [EddCtx.inDomain] at h
      rcases List.mem_append.1 h with h | h
      · exact hr r h
      · exact eddRules_isRule r h
    simp only [eddPropagate, eddUndefined, eddUndefinedAll_rules hr] at hu
    have hun : eddUndefinedAll (eddPropagateAll (ctx.inDomain m a k) k).2 = none := by
      cases h1 : eddUndefinedAll (eddPropagateAll (ctx.inDomain m a k) k).2 with
      | some d => rw [h1] at hu; simp at hu
      | none => rfl
    have ih := eddTranslateAll_propagate k [] (scope ++ pre.filter fun k => k.el.isConfGroup) (ctx.inDomain m a k) (by
      simpa [EddCtx.inDomain] using hg) hr' hcf hp hun
    simp only [eddPropagate, eddTranslate, eddDomChain, eddTranslateAll_rules hr]
    refine ih.map (fun _ => rfl) fun head x => ?_
    have e1 : ctx.domains ++ [(m, a)] ++ (x.1 ++ [x.2]).map (fun y => (y.2.el.name, y.2.el.aware)) =
        ctx.domains ++ ((pre, EddNode.mk (.domainGroup m a) k) :: x.1 ++ [x.2]).map (fun y => (y.2.el.name, y.2.el.aware)) := by simp
    simp only [eddDomRes, EddCtx.inDomain, e1]
    congr 3
    funext y
    congr 1
    simp [eddRulesAlong, eddOwnRules, eddRules]
  | .mk .root k, pre, scope, ctx, _, _, _, _, _ => by simpa [eddPropagate, eddTranslate, eddDomChain] using EddDomsRes.nil
  | .mk (.conf _) k, pre, scope, ctx, _, _, _, _, _ => by simpa [eddPropagate, eddTranslate, eddDomChain] using EddDomsRes.nil
  | .mk (.confGroup _) k, pre, scope, ctx, _, _, _, _, _ => by simpa [eddPropagate, eddTranslate, eddDomChain] using EddDomsRes.nil
  | .mk (.path _ _) k, pre, scope, ctx, _, _, _, _, _ => by simpa [eddPropagate, eddTranslate, eddDomChain] using EddDomsRes.nil
  | .mk (.component _) k, pre, scope, ctx, _, _, _, _, _ => by simpa [eddPropagate, eddTranslate, eddDomChain] using EddDomsRes.nil
  | .mk (.operator _) k, pre, scope, ctx, _, _, _, _, _ => by simpa [eddPropagate, eddTranslate, eddDomChain] using EddDomsRes.nil
  | .mk (.rule _ _ _) k, pre, scope, ctx, _, _, _, _, _ => by simpa [eddPropagate, eddTranslate, eddDomChain] using EddDomsRes.nil
theorem eddTranslateAll_propagate : ∀ (ks pre scope : List EddNode) (ctx : EddCtx),
    ctx.groups = (scope ++ pre.filter fun k => k.el.isConfGroup).map eddGroupOf → (∀ r ∈ ctx.rules, r.el.isRule = true) →
    ctx.confs = [] → ctx.paths = [] → eddUndefinedAll (eddPropagateAll ctx ks).2 = none →
    EddDomsRes ctx.domains ctx.rules scope (eddDomChains pre ks) (eddTranslateAll (eddPropagateAll ctx ks).2)
  | [], pre, scope, ctx, _, _, _, _, _ => by rw [eddPropagateAll_nil]; simpa [eddTranslateAll, eddDomChains] using EddDomsRes.nil
  | k :: ks, pre, scope, ctx, hg, hr, hcf, hp, hu => by
    rw [eddPropagateAll_cons] at hu ⊢
    rw [eddTranslateAll, eddDomChains]
    rw [eddUndefinedAll] at hu
    have h1 : eddUndefined (eddPropagate ctx k).2 = none := by
      cases h : eddUndefined (eddPropagate ctx k).2 with
      | none => rfl
      | some d => rw [h] at hu; simp at hu
    rw [h1] at hu
    have ih := eddTranslateAll_propagate ks (pre ++ [k]) scope (eddAfter ctx k) (eddAfter_groups k hg) (by simpa using hr) (by simpa using hcf)
      (by simpa using hp) hu
    simp only [eddAfter_domains, eddAfter_rules] at ih
    exact (eddTranslate_propagate k pre scope ctx hg hr hcf hp h1).append ih
end

end PF
