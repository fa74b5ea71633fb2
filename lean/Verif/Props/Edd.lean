import Verif.Lemmas.EddOnce
import Verif.Lemmas.EddAccept
import Verif.Props.Rule

/-!
# C92: descriptions of domains are translated to what they say
-/

namespace PF
open Spec

/-- C92: the domains that are created are those of the description, with the names of their groups in front; they are made sequence
aware exactly when their line or that of a group of theirs says so. -/
theorem C92_domains {lines : List Str} {tree : EddNode} {cmds : List EddCmd} (hp : eddParse lines = .ok tree)
    (hc : eddCommands lines = .ok cmds) (d : Str) :
    ([s "createDomain", d] ∈ cmds ↔ ∃ gs dom, EddDomainAt tree gs dom ∧ d = eddFullName (gs ++ [dom])) ∧
    ([s "setSequenceAwareness", d, s "true"] ∈ cmds ↔
      ∃ gs dom, EddDomainAt tree gs dom ∧ d = eddFullName (gs ++ [dom]) ∧ eddAware (gs ++ [dom]) = true) := by
  refine ⟨⟨fun h => ?_, ?_⟩, fun h => ?_, ?_⟩
  · obtain ⟨pre, post, h⟩ := List.append_of_mem h
    obtain ⟨gs, dom, h1, h2⟩ := eddCommands_cut hp hc h
    simp [s] at h2
    exact ⟨gs, dom, h1, h2⟩
  · rintro ⟨gs, dom, h1, rfl⟩
    exact (eddCommands_complete hp hc h1).1
  · obtain ⟨pre, post, h⟩ := List.append_of_mem h
    obtain ⟨gs, dom, h1, h2⟩ := eddCommands_cut hp hc h
    simp [s] at h2
    exact ⟨gs, dom, h1, h2.2.2, h2.2.1⟩
  · rintro ⟨gs, dom, h1, rfl, h2⟩
    exact (eddCommands_complete hp hc h1).2.1 h2

/-- C92: the configurations that are created are those of the description. -/
theorem C92_configurations {lines : List Str} {tree : EddNode} {cmds : List EddCmd} (hp : eddParse lines = .ok tree)
    (hc : eddCommands lines = .ok cmds) (d c : Str) : [s "createConfiguration", d, c] ∈ cmds ↔
      ∃ gs dom cs conf, EddConfAt tree gs dom cs conf ∧ d = eddFullName (gs ++ [dom]) ∧ c = eddFullName (cs ++ [conf]) := by
  constructor
  · intro h
    obtain ⟨pre, post, h⟩ := List.append_of_mem h
    obtain ⟨gs, dom, h1, h2⟩ := eddCommands_cut hp hc h
    simp [s] at h2
    obtain ⟨_, p, cs, k, conf, h3, h4⟩ := h2
    exact ⟨gs, dom, p, (cs, k), conf, h3, h4⟩
  · rintro ⟨gs, dom, cs, conf, h1, rfl, rfl⟩
    obtain ⟨_, _, head, _, _, h⟩ := eddCommands_complete hp hc (EddDomainAt_iff.2 (EddConfAt_iff.1 h1).1)
    exact (h cs conf h1).2.1

/-- C92: the rule of every configuration holds exactly when all the rules that apply to it hold: whenever these mean something for
the criteria, the framework accepts the text that is sent, and reads it as a rule that matches, whatever the states of criteria, exactly
when each of them does. -/
def EddRuleSays (rules : List EddNode) (t : Str) : Prop :=
  ∀ criteria rs, EddMeansAll criteria rules rs → ∃ r, parseRule criteria t = .ok r ∧ ∀ cs, Sat cs r ↔ ∀ q ∈ rs, Sat cs q

theorem eddRuleSays {rules : List EddNode} {t : Str} (h : eddRuleString rules = some t) : EddRuleSays rules t := by
  intro criteria rs hm
  obtain ⟨t', all, qs, h1, h2, h3⟩ := eddRuleString_means hm
  rw [h] at h1
  simp only [Option.some.injEq] at h1
  subst h1
  have := parseRule_text (a := []) (by intro x hx; simp at hx) h2
  exact ⟨_, by simpa using this, h3⟩

theorem C92_rules {lines : List Str} {tree : EddNode} {cmds : List EddCmd} (hp : eddParse lines = .ok tree)
    (hc : eddCommands lines = .ok cmds) :
    (∀ gs dom cs conf, EddConfAt tree gs dom cs conf → ∃ t,
      [s "setRule", eddFullName (gs ++ [dom]), eddFullName (cs ++ [conf]), t] ∈ cmds ∧
      EddRuleSays (eddRulesAlong [] (gs ++ dom :: (cs ++ [conf]))) t) ∧
    (∀ d c t, [s "setRule", d, c, t] ∈ cmds → ∃ gs dom cs conf, EddConfAt tree gs dom cs conf ∧ d = eddFullName (gs ++ [dom]) ∧
      c = eddFullName (cs ++ [conf]) ∧ EddRuleSays (eddRulesAlong [] (gs ++ dom :: (cs ++ [conf]))) t) := by
  refine ⟨fun gs dom cs conf h1 => ?_, fun d c t h => ?_⟩
  · obtain ⟨_, _, head, _, _, h⟩ := eddCommands_complete hp hc (EddDomainAt_iff.2 (EddConfAt_iff.1 h1).1)
    obtain ⟨⟨t, h2, h3⟩, _⟩ := h cs conf h1
    exact ⟨t, h3, eddRuleSays h2⟩
  · obtain ⟨pre, post, h⟩ := List.append_of_mem h
    obtain ⟨gs, dom, h1, h2⟩ := eddCommands_cut hp hc h
    simp [s] at h2
    obtain ⟨_, cs, p, k, h3, _, _, h4, rfl, rfl, rfl⟩ := h2
    exact ⟨gs, dom, cs, (p, k), h3, rfl, rfl, eddRuleSays h4⟩

/-- C92: the values that are set are those of the lines `path = value` below configurations, with the names of components in front of
that of the path. -/
theorem C92_values {lines : List Str} {tree : EddNode} {cmds : List EddCmd} (hp : eddParse lines = .ok tree)
    (hc : eddCommands lines = .ok cmds) (d c p v : Str) : [s "setConfigurationParameter", d, c, p, v] ∈ cmds ↔
      ∃ gs dom cs conf, EddConfAt tree gs dom cs conf ∧ d = eddFullName (gs ++ [dom]) ∧ c = eddFullName (cs ++ [conf]) ∧
        (p, v) ∈ eddSettings conf.2 := by
  constructor
  · intro h
    obtain ⟨pre, post, h⟩ := List.append_of_mem h
    obtain ⟨gs, dom, h1, h2⟩ := eddCommands_cut hp hc h
    simp [s] at h2
    obtain ⟨_, cs, q, k, h3, _, h4⟩ := h2
    obtain ⟨a, b, h5, ⟨rfl, rfl, rfl, rfl⟩, _⟩ := h4
    exact ⟨gs, dom, cs, (q, k), h3, rfl, rfl, h5⟩
  · rintro ⟨gs, dom, cs, conf, h1, rfl, rfl, h2⟩
    obtain ⟨_, _, head, _, _, h⟩ := eddCommands_complete hp hc (EddDomainAt_iff.2 (EddConfAt_iff.1 h1).1)
    exact (h cs conf h1).2.2.2 _ h2

/-- C92: the configurations of a domain all set the same parameters (a description where they do not is refused), and these are the
elements that are given to the domain. -/
theorem C92_elements {lines : List Str} {tree : EddNode} {cmds : List EddCmd} (hp : eddParse lines = .ok tree)
    (hc : eddCommands lines = .ok cmds) :
    (∀ gs dom cs conf cs' conf', EddConfAt tree gs dom cs conf → EddConfAt tree gs dom cs' conf' →
      ((eddSettings conf.2).map (·.1)).Perm ((eddSettings conf'.2).map (·.1))) ∧
    (∀ d p, [s "addElement", d, p] ∈ cmds ↔ ∃ gs dom cs conf, EddConfAt tree gs dom cs conf ∧ d = eddFullName (gs ++ [dom]) ∧
      p ∈ (eddSettings conf.2).map (·.1)) := by
  refine ⟨fun gs dom cs conf cs' conf' h1 h2 => ?_, fun d p => ⟨fun h => ?_, ?_⟩⟩
  · obtain ⟨_, _, head, h3, _⟩ := eddCommands_complete hp hc (EddDomainAt_iff.2 (EddConfAt_iff.1 h1).1)
    have a := (h3.2 _ (EddConfAt_iff.1 h1).2).trans (eddSettings_names conf.2)
    have b := (h3.2 _ (EddConfAt_iff.1 h2).2).trans (eddSettings_names conf'.2)
    exact a.symm.trans b
  · obtain ⟨pre, post, h⟩ := List.append_of_mem h
    obtain ⟨gs, dom, h1, h2⟩ := eddCommands_cut hp hc h
    rcases h2 with h2 | ⟨_, ⟨_, h2⟩ | ⟨q, cs, conf, h3, h4, h5⟩ | ⟨cs, conf, _, h2 | ⟨_, ⟨t, _, h2⟩ | ⟨_, h2, _⟩ | ⟨l, _, h2, _⟩⟩⟩⟩
    · simp [s] at h2
    · simp [s] at h2
    · simp only [List.cons.injEq, and_true, true_and] at h5
      obtain ⟨rfl, rfl⟩ := h5
      exact ⟨gs, dom, cs, conf, h3, rfl, h4⟩
    · simp [s] at h2
    · simp [s] at h2
    · simp [s] at h2
    · simp [s] at h2
  · rintro ⟨gs, dom, cs, conf, h1, rfl, h2⟩
    obtain ⟨_, _, head, h3, h4, _⟩ := eddCommands_complete hp hc (EddDomainAt_iff.2 (EddConfAt_iff.1 h1).1)
    exact h4 _ (((h3.2 _ (EddConfAt_iff.1 h1).2).trans (eddSettings_names conf.2)).mem_iff.2 h2)

/-- C92: in a sequence aware domain each configuration is given a sequence, which lists each of its parameters once; in other domains,
none is. -/
theorem C92_sequences {lines : List Str} {tree : EddNode} {cmds : List EddCmd} (hp : eddParse lines = .ok tree)
    (hc : eddCommands lines = .ok cmds) :
    (∀ gs dom cs conf, EddConfAt tree gs dom cs conf → eddAware (gs ++ [dom]) = true → ∃ ps,
      s "setElementSequence" :: eddFullName (gs ++ [dom]) :: eddFullName (cs ++ [conf]) :: ps ∈ cmds ∧
      ps.Perm ((eddSettings conf.2).map (·.1))) ∧
    (∀ d c ps, s "setElementSequence" :: d :: c :: ps ∈ cmds → ∃ gs dom cs conf, EddConfAt tree gs dom cs conf ∧
      eddAware (gs ++ [dom]) = true ∧ d = eddFullName (gs ++ [dom]) ∧ c = eddFullName (cs ++ [conf]) ∧
      ps.Perm ((eddSettings conf.2).map (·.1))) := by
  refine ⟨fun gs dom cs conf h1 ha => ?_, fun d c ps h => ?_⟩
  · obtain ⟨_, _, head, h3, _, h⟩ := eddCommands_complete hp hc (EddDomainAt_iff.2 (EddConfAt_iff.1 h1).1)
    exact ⟨_, (h cs conf h1).2.2.1 ha, eddSettings_names conf.2⟩
  · obtain ⟨pre, post, h⟩ := List.append_of_mem h
    obtain ⟨gs, dom, h1, h2⟩ := eddCommands_cut hp hc h
    rcases h2 with h2 | ⟨_, ⟨_, h2⟩ | ⟨q, cs, conf, h3, h4, h5⟩ | ⟨cs, conf, hcf, h2 | ⟨_, ⟨t, _, h2⟩ | ⟨ha, h2, _⟩ | ⟨l, _, h2, _⟩⟩⟩⟩
    · simp [s] at h2
    · simp [s] at h2
    · simp [s] at h5
    · simp [s] at h2
    · simp [s] at h2
    · simp only [List.cons_append, List.cons.injEq, true_and, List.nil_append] at h2
      obtain ⟨rfl, rfl, rfl⟩ := h2
      exact ⟨gs, dom, cs, conf, hcf, ha, rfl, rfl, eddSettings_names conf.2⟩
    · simp [s] at h2

/-- C92: nothing is used before it is created: what is said of a domain follows its creation, what is said of a configuration follows
its creation, and the value of a parameter follows its addition to the domain.  There are no commands but these eight. -/
theorem C92_order {lines : List Str} {tree : EddNode} {cmds pre post : List EddCmd} {cmd : EddCmd} (hp : eddParse lines = .ok tree)
    (hc : eddCommands lines = .ok cmds) (hcut : cmds = pre ++ cmd :: post) : ∃ d c p x, 
      cmd = [s "createDomain", d] ∨
      [s "createDomain", d] ∈ pre ∧ (cmd = [s "setSequenceAwareness", d, s "true"] ∨ cmd = [s "addElement", d, p] ∨
        cmd = [s "createConfiguration", d, c] ∨
        [s "createConfiguration", d, c] ∈ pre ∧ (cmd = [s "setRule", d, c, x] ∨
          (∃ ps, cmd = s "setElementSequence" :: d :: c :: ps ∧ ∀ q ∈ ps, [s "addElement", d, q] ∈ pre) ∨
          cmd = [s "setConfigurationParameter", d, c, p, x] ∧ [s "addElement", d, p] ∈ pre)) := by
  obtain ⟨gs, dom, h1, h2⟩ := eddCommands_cut hp hc hcut
  refine ⟨eddFullName (gs ++ [dom]), ?_⟩
  rcases h2 with h2 | ⟨h0, ⟨_, h2⟩ | ⟨q, cs, conf, h3, h4, h5⟩ | ⟨cs, conf, hcf, h2 | ⟨h6, ⟨t, _, h2⟩ | ⟨ha, h2, h7⟩ | ⟨l, _, h2, h7⟩⟩⟩⟩
  · exact ⟨[], [], [], .inl h2⟩
  · exact ⟨[], [], [], .inr ⟨h0, .inl h2⟩⟩
  · exact ⟨[], q, [], .inr ⟨h0, .inr (.inl h5)⟩⟩
  · exact ⟨_, [], [], .inr ⟨h0, .inr (.inr (.inl h2))⟩⟩
  · exact ⟨_, [], t, .inr ⟨h0, .inr (.inr (.inr ⟨h6, .inl h2⟩))⟩⟩
  · refine ⟨_, [], [], .inr ⟨h0, .inr (.inr (.inr ⟨h6, .inr (.inl ⟨_, h2, fun q hq => ?_⟩)⟩))⟩⟩
    have := (eddSettings_names conf.2).mem_iff.1 hq
    obtain ⟨l, hl, rfl⟩ := List.mem_map.1 this
    exact h7 l hl
  · exact ⟨_, l.1, l.2, .inr ⟨h0, .inr (.inr (.inr ⟨h6, .inr (.inr ⟨h2, h7⟩)⟩))⟩⟩

/-- C92: the same in full: every command is there once for what it says, in the order of the lines (the elements of a domain come in
some order); `eddDomChains` and `eddConfChains` list the domains, and the configurations of a domain. -/
theorem C92_once {lines : List Str} {tree : EddNode} {cmds : List EddCmd} (hp : eddParse lines = .ok tree)
    (hc : eddCommands lines = .ok cmds) : EddOnce (eddDomChains [] tree.kids) cmds ∧
      (∀ gs dom, (gs, dom) ∈ eddDomChains [] tree.kids ↔ EddDomainAt tree gs dom) ∧
      (∀ gs dom cs conf, EddDomainAt tree gs dom → ((cs, conf) ∈ eddConfChains [] dom.2.kids ↔ EddConfAt tree gs dom cs conf)) :=
  ⟨eddOnce_aux (eddCommands_res hp hc) _ rfl, fun _ _ => EddDomainAt_iff.symm, fun _ _ _ _ h =>
    ⟨fun h' => EddConfAt_iff.2 ⟨EddDomainAt_iff.1 h, h'⟩, fun h' => (EddConfAt_iff.1 h').2⟩⟩

/-- C92: a description that can be read, where the configurations of each domain (and of each group of domains) set the same parameters
and operators are `ANY` or `ALL`, is translated. -/
theorem C92_accepted {lines : List Str} {tree : EddNode} (hp : eddParse lines = .ok tree) (h : EddEvery EddSound tree) :
    ∃ cmds, eddCommands lines = .ok cmds :=
  eddCommands_sound hp h

/-! ## A description -/

/-- A description with a group of domains, a group of configurations that gives its rule to two configurations by its name, a component,
a comment and a blank line. -/
def sampleEdd : List Str :=
  [s "# sound", s "domainGroup: Audio", s "\tDevice Includes B", s "\tconfGroup: Call", s "\t\tMode Is InCall", s "",
   s "\tdomain: Volume sequenceAware", s "\t\tconf: Call", s "\t\t\tcomponent: /sys", s "\t\t\t\tvol = 3",
   s "\t\t\t/on = 1", s "\t\tconf: Other", s "\t\t\tANY", s "\t\t\t\tMode Is Idle", s "\t\t\t\tMode IsNot InCall",
   s "\t\t\t/on = 0", s "\t\t\t/sys/vol = 1"]

/-- What is made of it: the rule of the group of domains applies to both configurations, that of the group `Call` to the
configuration of that name. -/
def sampleEddCommands : List EddCmd :=
  [[s "createDomain", s "Audio.Volume"], [s "setSequenceAwareness", s "Audio.Volume", s "true"],
   [s "addElement", s "Audio.Volume", s "/on"], [s "addElement", s "Audio.Volume", s "/sys/vol"],
   [s "createConfiguration", s "Audio.Volume", s "Call"],
   [s "setRule", s "Audio.Volume", s "Call", s "All{     Device Includes B ,     Mode Is InCall }"],
   [s "setElementSequence", s "Audio.Volume", s "Call", s "/on", s "/sys/vol"],
   [s "setConfigurationParameter", s "Audio.Volume", s "Call", s "/sys/vol", s "3"],
   [s "setConfigurationParameter", s "Audio.Volume", s "Call", s "/on", s "1"],
   [s "createConfiguration", s "Audio.Volume", s "Other"],
   [s "setRule", s "Audio.Volume", s "Other",
     s "All{     Device Includes B ,     Any{         Mode Is Idle ,         Mode IsNot InCall     } }"],
   [s "setElementSequence", s "Audio.Volume", s "Other", s "/on", s "/sys/vol"],
   [s "setConfigurationParameter", s "Audio.Volume", s "Other", s "/on", s "0"],
   [s "setConfigurationParameter", s "Audio.Volume", s "Other", s "/sys/vol", s "1"]]

example : eddCommands sampleEdd = .ok sampleEddCommands := by rfl

def sampleEddGroup : EddNode := .mk (.confGroup (s "Call")) [.mk (.rule (s "Mode") (s "Is") (s "InCall")) []]

def sampleEddRule : EddNode := .mk (.rule (s "Device") (s "Includes") (s "B")) []

def sampleEddCall : EddNode :=
  .mk (.conf (s "Call")) [.mk (.component (s "/sys")) [.mk (.path (s "vol") (s "3")) []], .mk (.path (s "/on") (s "1")) []]

def sampleEddOther : EddNode :=
  .mk (.conf (s "Other")) [.mk (.operator (s "ANY")) [.mk (.rule (s "Mode") (s "Is") (s "Idle")) [],
    .mk (.rule (s "Mode") (s "IsNot") (s "InCall")) []], .mk (.path (s "/on") (s "0")) [], .mk (.path (s "/sys/vol") (s "1")) []]

def sampleEddDomain : EddNode := .mk (.domain (s "Volume") true) [sampleEddCall, sampleEddOther]

def sampleEddAudio : EddNode := .mk (.domainGroup (s "Audio") false) [sampleEddRule, sampleEddGroup, sampleEddDomain]

def sampleEddTree : EddNode := .mk .root [sampleEddAudio]

theorem sampleEdd_parse : eddParse sampleEdd = .ok sampleEddTree := rfl

/-- The description is accepted, has these configurations, and the rules that apply to them mean something. -/
example : EddConfAt sampleEddTree [([], sampleEddAudio)] ([sampleEddRule, sampleEddGroup], sampleEddDomain) [] ([], sampleEddCall) :=
  ⟨.deeper [] _ [] (.deeper [_, _] _ [] (.here [] _ [_])), by simp; rfl, rfl, by simp, rfl⟩

example : EddConfAt sampleEddTree [([], sampleEddAudio)] ([sampleEddRule, sampleEddGroup], sampleEddDomain) []
    ([sampleEddCall], sampleEddOther) :=
  ⟨.deeper [] _ [] (.deeper [_, _] _ [] (.here [_] _ [])), by simp; rfl, rfl, by simp, rfl⟩

theorem sampleEdd_mode (j : Nat) (c' : Criterion) (hj : j < 1) (hc : sampleCriteria[j]? = some c') : c'.pathName ≠ s "Mode" := by
  have : j = 0 := by omega
  subst this
  simp [sampleCriteria] at hc; subst hc; decide

example : EddMeansAll sampleCriteria
    (eddRulesAlong [] ([([], sampleEddAudio)] ++ ([sampleEddRule, sampleEddGroup], sampleEddDomain) :: ([] ++ [([], sampleEddCall)])))
    [.crit 0 .includes 4#32, .crit 1 .is 3#32] := by
  refine ⟨_, _, rfl, ⟨s "Device", s "Includes", s "B", s " ", s " ", ?_, ?_, ?_, ?_, ?_, ?_, rfl,
    .mk 0 .includes _ _ rfl rfl (by intro j c' hj; omega) rfl (by decide) (by decide)⟩,
    _, _, rfl, ⟨s "Mode", s "Is", s "InCall", s " ", s " ", ?_, ?_, ?_, ?_, ?_, ?_, rfl,
    .mk 1 .is _ _ rfl rfl sampleEdd_mode rfl (by decide) (by decide)⟩, rfl⟩ <;> simp [RuleWord, Spaces, s]

example : eddAware [([], sampleEddAudio), ([sampleEddRule, sampleEddGroup], sampleEddDomain)] = true := rfl

example : EddEvery EddSound sampleEddTree := by
  have hno : ∀ e k, (EddElem.isDomain e = false) → EddElem.isDomainGroup e = false → (∀ m, e = .operator m → m = s "ANY" ∨ m = s "ALL") →
      EddSound (.mk e k) := fun e k h1 h2 h3 => ⟨fun h => by simp [h1, h2] at h, h3⟩
  simp only [EddEvery, EddEveryAll, sampleEddTree, sampleEddAudio, sampleEddRule, sampleEddGroup, sampleEddDomain, sampleEddCall,
    sampleEddOther, and_true]
  refine ⟨hno _ _ rfl rfl (by simp), ⟨?_, by simp⟩, hno _ _ rfl rfl (by simp), ⟨hno _ _ rfl rfl (by simp), hno _ _ rfl rfl (by simp)⟩, ?_,
    ⟨hno _ _ rfl rfl (by simp), ⟨hno _ _ rfl rfl (by simp), hno _ _ rfl rfl (by simp)⟩, hno _ _ rfl rfl (by simp)⟩,
    hno _ _ rfl rfl (by simp), ⟨hno _ _ rfl rfl (by rintro m h; injection h with h; exact .inl h.symm), hno _ _ rfl rfl (by simp),
      hno _ _ rfl rfl (by simp)⟩, hno _ _ rfl rfl (by simp), hno _ _ rfl rfl (by simp)⟩
  · intro _ x hx
    simp [eddConfChains, eddConfChain] at hx
  · refine ⟨fun _ x hx y hy => ?_, by simp⟩
    simp only [eddConfChains, eddConfChain, EddNode.kids_mk, List.nil_append, List.mem_append, List.mem_singleton, List.not_mem_nil,
      or_false] at hx hy
    rcases hx with rfl | rfl <;> rcases hy with rfl | rfl <;> decide

/-! ## What descriptions cannot say, or say otherwise than they look -/

/-- C92 (limit): a line that starts with `ALL` or `ANY` is an operator: a rule on a criterion of such a name ends the program with an
error that it does not report. -/
theorem C92_criterion_taken_for_operator :
    eddCommands [s "domain: D", s "\tconf: C", s "\t\tALLOWED Is Yes", s "\t\t/p = 1"] = .error .keyError := rfl

/-- C92 (limit): a configuration of a group that is in a group of domains, rather than in a domain, is accepted and dropped. -/
theorem C92_configuration_outside_domain_dropped :
    eddCommands [s "domainGroup: G", s "\tconfGroup: H", s "\t\tconf: C", s "\t\t\t/p = 1"] = .ok [] := rfl

/-- C92 (limit): parameters that are set by a group of configurations are accepted and dropped. -/
theorem C92_component_of_group_dropped :
    eddCommands [s "domain: D", s "\tconfGroup: H", s "\t\tcomponent: /c", s "\t\t\tp = 1", s "\t\tconf: C"] =
      .ok [[s "createDomain", s "D"], [s "createConfiguration", s "D", s "H.C"], [s "setRule", s "D", s "H.C", s "All{  }"]] := rfl

/-- C92 (limit): in the line of a domain, anything but the exact word after the name is dropped: the awareness too. -/
theorem C92_awareness_misspelt :
    eddCommands [s "domain: D sequenceaware"] = .ok [[s "createDomain", s "D"]] := rfl

/-- C92 (limit): the sequence is not in the order of the lines: what is set through components comes last. -/
theorem C92_sequence_not_in_order :
    eddCommands [s "domain: D sequenceAware", s "\tconf: C", s "\t\tcomponent: /c", s "\t\t\tp = 1", s "\t\t/q = 2"] =
      .ok [[s "createDomain", s "D"], [s "setSequenceAwareness", s "D", s "true"], [s "addElement", s "D", s "/q"],
        [s "addElement", s "D", s "/c/p"], [s "createConfiguration", s "D", s "C"], [s "setRule", s "D", s "C", s "All{  }"],
        [s "setElementSequence", s "D", s "C", s "/q", s "/c/p"], [s "setConfigurationParameter", s "D", s "C", s "/c/p", s "1"],
        [s "setConfigurationParameter", s "D", s "C", s "/q", s "2"]] := rfl

/-- C92 (limit): two rules on one line are one rule for the framework: what follows the value is passed on, and the framework drops
it. -/
theorem C92_words_after_value :
    eddCommands [s "domain: D", s "\tconf: C", s "\t\tMode Is Idle Device Includes B"] =
      .ok [[s "createDomain", s "D"], [s "createConfiguration", s "D", s "C"],
        [s "setRule", s "D", s "C", s "All{     Mode Is Idle Device Includes B }"]] ∧
    parseRule sampleCriteria (s "All{     Mode Is Idle Device Includes B }") = .ok (.compound true [.crit 1 .is 0#32]) :=
  ⟨rfl, rfl⟩

end PF
