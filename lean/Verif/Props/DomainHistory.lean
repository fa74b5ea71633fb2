import Verif.Lemmas.Lookup
import Verif.Lemmas.XmlShape
import Verif.Spec.SampleDomain

/-!
# Properties that hold after any history of operations: rules (C08), last applied configurations
(C17), settings areas (C18, C19), names (C20), associations (C24), refused operations (C26)
-/

namespace PF
open Spec

/-! ## C08: rules of configurations -/

/-- C08: if `setApplicationRule` does not succeed, nothing changes: the configuration keeps its rule. -/
theorem C08_refused_rule_changes_nothing {env : Env} (wf : env.root.WF) {cs : List Criterion} {st : St}
    (h : Reachable env cs st) (dom name text : Str) (hf : (st.setApplicationRule dom name text).1 ≠ .ok ()) :
    (st.setApplicationRule dom name text).2 = st := by
  have inv := h.inv wf
  unfold St.setApplicationRule St.onConfig at hf ⊢
  split
  · rfl
  · rename_i d hd
    rw [hd] at hf
    have hdm := (St.findDomain_mem hd).1
    cases hc : d.findConfig name with
    | none => rfl
    | some c =>
      simp only [hc] at hf ⊢
      have hcm := (Domain.findConfig_mem hc).1
      have : (c.setRule st.criteria text).2 = c := by
        unfold Config.setRule at hf ⊢
        split
        · rename_i r hr; rw [hr] at hf; exact absurd rfl hf
        all_goals rfl
      rw [this, Domain.setConfig_self (inv.good d hdm).ids hcm, inv.setDomain_self hdm]

/-- C08: if it succeeds, the text is a rule, `getApplicationRule` prints that rule for this
configuration, and prints what it printed before for all the others. -/
theorem C08_accepted_rule_is_printed {env : Env} (wf : env.root.WF) {cs : List Criterion} {st : St}
    (h : Reachable env cs st) (dom name text : Str) (hf : (st.setApplicationRule dom name text).1 = .ok ()) :
    (∃ r, parseRule st.criteria text = .ok r ∧
      (st.setApplicationRule dom name text).2.getApplicationRule dom name = some (r.dump st.criteria)) ∧
    (∀ dom' name', (dom', name') ≠ (dom, name) →
      (st.setApplicationRule dom name text).2.getApplicationRule dom' name' = st.getApplicationRule dom' name') ∧
    (st.setApplicationRule dom name text).2.mem = st.mem := by
  have inv := h.inv wf
  unfold St.setApplicationRule St.onConfig at hf ⊢
  split
  · rename_i hd; rw [hd] at hf; simp at hf
  · rename_i d hd
    rw [hd] at hf
    have hdm := (St.findDomain_mem hd).1
    cases hc : d.findConfig name with
    | none => simp [hc] at hf
    | some c =>
      simp only [hc] at hf ⊢
      have hcm := (Domain.findConfig_mem hc).1
      have hids := (inv.good d hdm).ids
      cases hp : parseRule st.criteria text with
      | err => simp [Config.setRule, hp] at hf
      | abort => simp [Config.setRule, hp] at hf
      | outOfFuel => simp [Config.setRule, hp] at hf
      | ok r =>
        have hs : c.setRule st.criteria text = (.ok (), { c with rule := some r }) := by simp [Config.setRule, hp]
        rw [hs]
        dsimp only
        have hfd := inv.findDomain_set hd (d' := d.setConfig { c with rule := some r }) rfl rfl
        refine ⟨⟨r, rfl, ?_⟩, ?_, rfl⟩
        · unfold St.getApplicationRule
          rw [hfd]
          dsimp only
          rw [Domain.findConfig_set hids hc (c' := { c with rule := some r }) rfl rfl]
          rfl
        · intro dom' name' hne
          unfold St.getApplicationRule
          by_cases hdd : dom' = dom
          · subst hdd
            rw [hfd, hd]
            dsimp only
            have hnn : name ≠ name' := fun he => hne (by rw [he])
            have : (d.setConfig { c with rule := some r }).findConfig name' = d.findConfig name' :=
              find_set_ne (f := Config.id) (key := Config.pathName) hcm hids rfl rfl (by
                rw [(Domain.findConfig_mem hc).2]; exact hnn)
            rw [this]
            rfl
          · have : (st.setDomain (d.setConfig { c with rule := some r })).findDomain dom' = st.findDomain dom' :=
              find_set_ne (f := Domain.id) (key := Domain.pathName) hdm inv.ids rfl rfl (by
                rw [(St.findDomain_mem hd).2]; exact fun he => hdd he.symm)
            rw [this]
            rfl

/-- C08: after `clearApplicationRule` the configuration has no rule. -/
theorem C08_cleared {env : Env} (wf : env.root.WF) {cs : List Criterion} {st : St}
    (h : Reachable env cs st) (dom name : Str) (hf : (st.clearApplicationRule dom name).1 = .ok ()) :
    ∃ d c, (st.clearApplicationRule dom name).2.findDomain dom = some d ∧ d.findConfig name = some c ∧ c.rule = none ∧
      (st.clearApplicationRule dom name).2.getApplicationRule dom name = some (s "<none>") := by
  have inv := h.inv wf
  unfold St.clearApplicationRule St.onConfig at hf ⊢
  split
  · rename_i hd; rw [hd] at hf; simp at hf
  · rename_i d hd
    rw [hd] at hf
    have hdm := (St.findDomain_mem hd).1
    cases hc : d.findConfig name with
    | none => simp [hc] at hf
    | some c =>
      dsimp only
      have hfd := inv.findDomain_set hd (d' := d.setConfig c.clearRule) rfl rfl
      have hfc := Domain.findConfig_set (inv.good d hdm).ids hc (c' := c.clearRule) rfl rfl
      refine ⟨_, _, hfd, hfc, rfl, ?_⟩
      unfold St.getApplicationRule
      rw [hfd]
      dsimp only
      rw [hfc]
      rfl

example : (Sample.st.setApplicationRule (s "V") (s "Calm") (s "All{Mode Is")).1 = .err ∧
    (Sample.st.setApplicationRule (s "V") (s "Calm") (s "All{Mode Is InCall}")).1 = .ok () ∧
    Sample.st.getApplicationRule (s "V") (s "Calm") = some (s "Any{Device Includes B}") ∧
    (Sample.st.setApplicationRule (s "V") (s "Calm") (s "All{Mode Is InCall}")).2.getApplicationRule (s "V") (s "Calm") =
      some (s "All{Mode Is InCall}") ∧
    (Sample.st.clearApplicationRule (s "V") (s "Calm")).1 = .ok () := by decide +kernel

/-! ## C17: last applied configuration -/

/-- C17: after any history, the last applied configuration of a domain is one of its configurations,
or there is none. -/
theorem C17_last_applied_exists {env : Env} (wf : env.root.WF) {cs : List Criterion} {st : St} (h : Reachable env cs st)
    {d : Domain} (hd : d ∈ st.domains) : d.last = none ∨ ∃ c ∈ d.configs, d.last = some c.id := by
  cases hl : d.last with
  | none => exact .inl rfl
  | some i =>
    obtain ⟨c, hc, rfl⟩ := List.mem_map.1 (((h.inv wf).good d hd).last i hl)
    exact .inr ⟨c, hc, rfl⟩

/-- C17: the name reported is that of a configuration of the domain, or `<none>`. -/
theorem C17_reported_name {env : Env} (wf : env.root.WF) {cs : List Criterion} {st : St} (h : Reachable env cs st)
    {d : Domain} (hd : d ∈ st.domains) :
    (d.last = none ∧ d.lastName = some (s "<none>")) ∨
    ∃ c ∈ d.configs, d.last = some c.id ∧ d.lastName = some c.name := by
  rcases C17_last_applied_exists wf h hd with hl | ⟨c, hc, hl⟩
  · exact .inl ⟨hl, by simp [Domain.lastName, hl]⟩
  · refine .inr ⟨c, hc, hl, ?_⟩
    unfold Domain.lastName
    rw [hl]
    dsimp only
    cases hf : d.configs.find? (fun x => x.id == c.id) with
    | none => exact absurd (List.find?_eq_none.1 hf c hc) (by simp)
    | some x =>
      have := List.find?_some hf
      have := nodup_map_inj ((h.inv wf).good d hd).ids (List.mem_of_find?_eq_some hf) hc (by simpa using this)
      rw [this]
      rfl

/-- The sample, after an application, and after the configuration is deleted. -/
example : ((Sample.run Sample.env [.apply false] Sample.st).domains.map Domain.lastName) = [some (s "Calm"), some (s "On")] ∧
    ((Sample.run Sample.env [.apply false, .deleteConfiguration (s "V") (s "Calm")] Sample.st).domains.map Domain.lastName) =
      [some (s "<none>"), some (s "On")] := by decide +kernel

/-! ## C18: settings areas -/

/-- C18: after any history, a configuration holds exactly one settings area per element of the domain
and no other, each one of the size of its element; the main blackboard has the size of the
structure. -/
theorem C18_one_area_per_element {env : Env} (wf : env.root.WF) {cs : List Criterion} {st : St} (h : Reachable env cs st)
    {d : Domain} (hd : d ∈ st.domains) {c : Config} (hc : c ∈ d.configs) :
    (c.areas.map Area.elem).Perm d.elems ∧ d.elems.Nodup ∧
    (∀ a ∈ c.areas, ∃ e, env.root.at? a.elem = some e ∧ a.board.length = e.areaSize) ∧
    st.mem.main.length = env.root.footprint := by
  have g := (h.inv wf).good d hd
  have ok := g.ok c hc
  exact ⟨(List.perm_ext_iff_of_nodup ok.nodup g.nodup).2 ok.mem, g.nodup, ok.sized, (h.inv wf).main⟩

/-- The argument of a typed set has the form the parameter takes: one value for a parameter that is
not an array; as many values as the array has; not a list of texts for a parameter that is not an
array (see C49 for what the handles check before). -/
def TakesForm (k : EKind) (v : HVal) : Prop :=
  match v, k with
  | .one _, .array _ => False
  | .one _, .group _ => False
  | .one _, .bitBlock _ => False
  | .one _, _ => True
  | v, .array t => v.atoms.length = t.length
  | .strs _, _ => False
  | _, _ => True

/-- The operations that may stop the program: a rule whose text the parser does not survive (see
C07), a typed set with a list where the parameter does not take one, and an import of a document that
has not the shape of the schema. -/
def Stops (env : Env) (st : St) : DomOp → Prop
  | .setApplicationRule _ _ text => (∀ r, parseRule st.criteria text ≠ .ok r) ∧ ∀ e, parseRule st.criteria text ≠ .err e
  | .handleSet p v => ∃ e, env.root.at? p = some e ∧ ¬ TakesForm e.kind v
  | .importDomains _ doc => ¬ ∀ x ∈ doc.children, DomainShape x
  | .importDomain _ _ doc => ¬ DomainShape doc
  | _ => False

/-- C18: after any history no operation accesses memory outside an area or the main blackboard, uses
an area that does not exist or is not valid, or evaluates a rule about an unknown criterion: the only
stops left are those of `Stops`. -/
theorem C18_no_access_outside {env : Env} (wf : env.root.WF) {cs : List Criterion} {st : St} (h : Reachable env cs st)
    (op : DomOp) (ho : (op.step env st).1 = .abort) : Stops env st op := by
  have inv := h.inv wf
  cases op with
  | createDomain name => exfalso; revert ho; simp only [DomOp.step, St.createDomain]; split <;> simp
  | deleteDomain name => exfalso; revert ho; simp only [DomOp.step, St.deleteDomain]; split <;> simp
  | deleteAllDomains => simp [DomOp.step, St.deleteAllDomains] at ho
  | renameDomain name new =>
    exfalso; revert ho; simp only [DomOp.step, St.renameDomain]
    split
    · simp
    · split <;> simp
  | setSequenceAwareness name aware => exact absurd ho (St.onDomain_ok _ _ (by simp))
  | createConfiguration dom name =>
    exfalso; revert ho
    simp only [DomOp.step, St.createConfiguration]
    split
    · simp
    · rename_i d hd
      split
      · simp
      · simp
      · rename_i hx; exact absurd hx (Domain.createConfig_ok wf inv (St.findDomain_mem hd).1 name)
  | deleteConfiguration dom name =>
    refine absurd ho (St.onDomain_ok _ _ fun d _ => bind_ok ?_)
    unfold Domain.deleteConfig; split <;> simp
  | renameConfiguration dom name new =>
    refine absurd ho (St.onDomain_ok _ _ fun d _ => bind_ok ?_)
    unfold Domain.renameConfig
    split
    · simp
    · split <;> simp
  | saveConfiguration dom name =>
    refine absurd ho (St.onDomain_ok _ _ fun d hd => bind_ok ?_)
    cases hf : d.findConfig name with
    | none => simp [Domain.saveConfig, hf]
    | some c =>
      obtain ⟨c', h1, _⟩ := Domain.saveConfig_spec wf (inv.good d hd) inv.main hf
      rw [h1]; simp
  | restoreConfiguration autoSync dom name =>
    exfalso
    have := errorsOut_abort ho
    revert this
    unfold St.restoreConfiguration
    split
    · simp
    · rename_i d hd
      have hdm := (St.findDomain_mem hd).1
      split
      · simp
      · simp
      · rename_i hx
        exfalso
        revert hx
        unfold Domain.restoreConfig
        split
        · simp
        · rename_i c hc
          obtain ⟨m', e, h1, _⟩ := Domain.restore_total wf (inv.good d hdm) env.hw (autoSync && d.seqAware) inv.main
            (Domain.findConfig_mem hc).1
          rw [h1]
          dsimp only
          split <;> simp
  | addElement dom path =>
    exfalso; revert ho
    simp only [DomOp.step, St.atPath]
    split
    · simp
    · rename_i p hp
      obtain ⟨e, he⟩ := Elem.locate_at hp
      refine St.onDomain_ok _ _ ?_
      intro d hd
      unfold Domain.addElem
      split
      · simp
      · rename_i hpe
        split
        · simp
        · rename_i hb
          obtain ⟨d1, att1, h1, _⟩ := Domain.addElem_good wf (inv.good d hd) (att := st.attached) hpe
            (fun q hq hqp => hb ((inv.belongs hd p).2 ⟨q, hq, hqp⟩)) he inv.main
          rw [h1]; simp
  | removeElement dom path =>
    exfalso; revert ho
    simp only [DomOp.step, St.atPath]
    split
    · simp
    · rename_i p hp
      refine St.onDomain_ok _ _ ?_
      intro d hd
      by_cases hpe : p ∈ d.elems
      · obtain ⟨d1, h1, _⟩ := Domain.removeElem_good (inv.good d hd) (att := st.attached) hpe
        rw [h1]; simp
      · simp [Domain.removeElem, hpe]
  | split dom path =>
    exfalso; revert ho
    simp only [DomOp.step, St.atPath]
    split
    · simp
    · rename_i p hp
      unfold St.split
      split
      · simp
      · rename_i d hd
        have hdm := (St.findDomain_mem hd).1
        split
        · simp
        · simp
        · rename_i hx
          exfalso
          by_cases hpe : p ∈ d.elems
          · by_cases hne : env.root.childPositions p = []
            · simp [Domain.split, hpe, hne] at hx
            · obtain ⟨d1, h1, _⟩ := Domain.split_good wf (inv.good d hdm) (att := st.attached) hpe hne
              rw [h1] at hx; simp at hx
          · simp [Domain.split, hpe] at hx
  | setElementSequence dom name paths =>
    refine absurd ho (St.onConfig_ok _ _ _ ?_)
    intro d hd c hc
    exact (sequenceLoop_spec (root := env.root) (paths := paths) (seen := []) (front := []) (back := c.areas)
      (by simpa using ((inv.good d hd).ok c hc).nodup) rfl).2.2
  | setApplicationRule dom name text =>
    apply Classical.byContradiction
    intro hn
    refine absurd ho (St.onConfig_ok _ _ _ ?_)
    intro d hd c hc
    unfold Config.setRule
    cases hp : parseRule st.criteria text with
    | ok r => simp
    | err e => simp
    | abort => exact absurd ⟨by simp [hp], by simp [hp]⟩ hn
    | outOfFuel => exact absurd ⟨by simp [hp], by simp [hp]⟩ hn
  | clearApplicationRule dom name => exact absurd ho (St.onConfig_ok _ _ _ (by simp))
  | setConfigurationParameter ctx autoSync dom conf path text =>
    revert ho
    simp only [DomOp.step, St.setConfigParam]
    split
    · simp
    · rename_i d c q isLast hb
      obtain ⟨p, hp, hd, hc, hq, hqp, _⟩ := St.findBlackboard_spec hb
      have hdm := (St.findDomain_mem hd).1
      have g := inv.good d hdm
      obtain ⟨a, ha, _⟩ := (g.ok c (Domain.findConfig_mem hc).1).area hq
      obtain ⟨e, he⟩ := g.at_ q hq
      obtain ⟨base, hbase⟩ := Elem.offset_of_at (off := 0) he
      rw [ha, hbase]
      dsimp only
      split
      · split
        · intro ho
          exact setText_main_fits wf env.rd ctx inv.main path text (Env.setMain_abort ho)
        · simp
      · intro ho
        obtain ⟨ham, rfl⟩ := (g.ok c (Domain.findConfig_mem hc).1).area_iff.1 ha
        obtain ⟨f, hf, hl⟩ := (g.ok c (Domain.findConfig_mem hc).1).sized a ham
        refine setText_fits wf env.rd ctx hf hbase a.board hl path text ?_ ho
        intro p' items ht
        rw [(wf.access_locate hp ht).1]; exact hqp
  | setParameter ctx autoSync path text =>
    exact setText_main_fits wf env.rd ctx inv.main path text (Env.setMain_abort ho)
  | setElementBytes autoSync path bytes =>
    exfalso; revert ho
    simp only [DomOp.step, St.atPath]
    split
    · simp
    · rename_i p hp
      obtain ⟨e, he⟩ := Elem.locate_at hp
      intro ho
      have := errorsOut_abort ho
      revert this
      unfold Env.setMainBytes
      split
      · simp
      · rename_i hx; exact absurd hx (Elem.setBytes_ok wf inv.main he bytes)
      · split <;> simp
  | handleSet p v => exact Env.setMainVal_abort wf inv.main ho
  | handleBytes autoSync p bytes =>
    exfalso; revert ho
    simp only [DomOp.step]
    split
    · simp
    · rename_i e he
      intro ho
      have := errorsOut_abort ho
      revert this
      unfold Env.setMainBytes
      split
      · simp
      · rename_i hx; exact absurd hx (Elem.setBytes_ok wf inv.main he bytes)
      · split <;> simp
  | setElementXml ctx autoSync path doc =>
    exfalso; revert ho
    simp only [DomOp.step, St.atPath]
    split
    · simp
    · rename_i p hp
      obtain ⟨e, he⟩ := Elem.locate_at hp
      exact fun ho => Env.setMainXml_safe wf he doc inv.main (errorsOut_abort ho)
  | handleXml ctx autoSync p doc =>
    exfalso; revert ho
    simp only [DomOp.step]
    split
    · simp
    · rename_i e he
      exact fun ho => Env.setMainXml_safe wf he doc inv.main (errorsOut_abort ho)
  | importDomains withSettings doc => exact fun hs => inv.importDomains_safe wf env.rd withSettings hs ho
  | importDomain overwrite withSettings doc => exact fun hs => inv.importDomain_safe wf env.rd overwrite withSettings hs ho
  | sync => exact absurd (errorsOut_abort ho) (by simp [Env.syncSystem])
  | setCriterion i v => simp [DomOp.step, St.setCriterion] at ho
  | askResync i => simp [DomOp.step, St.askResync] at ho
  | apply force =>
    obtain ⟨b, log, h1, _⟩ := inv.apply_eq wf env.hw force
    simp [DomOp.step, h1] at ho

example : Sample.st.domains.map (fun d => d.configs.map (fun c => c.areas.map Area.elem)) =
    [[[[0, 0, 0]], [[0, 0, 0]]], [[[0, 0, 1], [0, 1]], [[0, 0, 1], [0, 1]]]] := by decide +kernel

/-! ## C19: all settings are valid -/

/-- C19 (`_partial`: histories with an import of a single domain from XML are not included, see
DESIGN.md): after any history every settings area of every configuration is valid. -/
theorem C19_all_areas_valid_partial {env : Env} (wf : env.root.WF) {cs : List Criterion} {st : St}
    (h : Reachable env cs st) {d : Domain} (hd : d ∈ st.domains) {c : Config} (hc : c ∈ d.configs) {a : Area}
    (ha : a ∈ c.areas) : a.valid = true := ((h.inv wf).good d hd).valid c hc a ha

example : ∃ d ∈ Sample.st.domains, ∃ c ∈ d.configs, c.areas.length = 2 := ⟨Sample.domQ, by simp [Sample.st], Sample.on, by simp [Sample.domQ], rfl⟩

/-! ## C20: names are unique -/

/-- C20 (`_partial`: empty names are excluded, see `C20_empty_names_twice`): after any history two
domains with the same name are the same one. -/
theorem C20_domain_names_partial {env : Env} (wf : env.root.WF) {cs : List Criterion} {st : St} (h : Reachable env cs st)
    {d e : Domain} (hd : d ∈ st.domains) (he : e ∈ st.domains) (hn : d.name = e.name) (hne : d.name ≠ []) : d = e := by
  refine nodup_map_inj (h.inv wf).ids hd he ?_
  exact (h.names wf).domains (d.id, d.name, d.names) (List.mem_map.2 ⟨d, hd, rfl⟩) (e.id, e.name, e.names)
    (List.mem_map.2 ⟨e, he, rfl⟩) hn hne

/-- C20 (`_partial` for the same reason): after any history two configurations of a domain with the
same name are the same one. -/
theorem C20_configuration_names_partial {env : Env} (wf : env.root.WF) {cs : List Criterion} {st : St}
    (h : Reachable env cs st) {d : Domain} (hd : d ∈ st.domains) {a b : Config} (ha : a ∈ d.configs) (hb : b ∈ d.configs)
    (hn : a.name = b.name) (hne : a.name ≠ []) : a = b := by
  refine nodup_map_inj ((h.inv wf).good d hd).ids ha hb ?_
  exact (h.names wf).configs (d.id, d.name, d.names) (List.mem_map.2 ⟨d, hd, rfl⟩) (a.id, a.name)
    (List.mem_map.2 ⟨a, ha, rfl⟩) (b.id, b.name) (List.mem_map.2 ⟨b, hb, rfl⟩) hn hne

/-- C20: the positions of two domains in the list determine them (no domain is there twice). -/
theorem C20_no_domain_twice {env : Env} (wf : env.root.WF) {cs : List Criterion} {st : St} (h : Reachable env cs st) :
    (st.domains.map Domain.id).Nodup ∧ ∀ d ∈ st.domains, (d.configs.map Config.id).Nodup :=
  ⟨(h.inv wf).ids, fun d hd => ((h.inv wf).good d hd).ids⟩

/-- Two domains with the empty name can be created: the search for an existing one compares the name
with the path name, which is never empty. -/
theorem C20_empty_names_twice :
    (Sample.run Sample.env [.createDomain [], .createDomain []] (St.initial Sample.root [])).domains.map Domain.name =
      [[], []] := by decide +kernel

example : Sample.st.domains.map Domain.name = [s "V", s "Q"] ∧
    (Sample.st.createDomain (s "V")).1 = .err ∧ (Sample.st.renameDomain (s "V") (s "Q")).1 = .err ∧
    (Sample.st.renameConfiguration (s "V") (s "Loud") (s "Calm")).1 = .err := by decide +kernel

/-! ## C24: no part of the structure is twice in a domain -/

/-- C24: after any history, among the elements of a domain none is equal to another or below
another. -/
theorem C24_no_element_twice {env : Env} (wf : env.root.WF) {cs : List Criterion} {st : St} (h : Reachable env cs st)
    {d : Domain} (hd : d ∈ st.domains) :
    d.elems.Nodup ∧ ∀ p ∈ d.elems, ∀ q ∈ d.elems, p ≠ q → ¬ p <+: q :=
  ⟨((h.inv wf).good d hd).nodup, fun p hp q hq hne hpq => hne (((h.inv wf).good d hd).antichain p hp q hq hpq)⟩

/-- C24: hence no bit of the memory is in two elements of a domain. -/
theorem C24_no_bit_twice {env : Env} (wf : env.root.WF) (fd : env.root.FieldsDisjoint) {cs : List Criterion} {st : St}
    (h : Reachable env cs st) {d : Domain} (hd : d ∈ st.domains) {p q : Pos} (hp : p ∈ d.elems) (hq : q ∈ d.elems)
    (hne : p ≠ q) (i : Nat) : ¬ (env.root.Owns p i ∧ env.root.Owns q i) :=
  fun hx => hne (((h.inv wf).good d hd).owner wf fd hp hq hx.1 hx.2)

/-- C24: an element and a domain know of each other. -/
theorem C24_association_both_ways {env : Env} (wf : env.root.WF) {cs : List Criterion} {st : St} (h : Reachable env cs st)
    (p : Pos) (i : Nat) : (p, i) ∈ st.attached ↔ ∃ d ∈ st.domains, d.id = i ∧ p ∈ d.elems := (h.inv wf).att p i

/-- The sample: an element below one of the domain is refused; one above absorbs it. -/
example : (Sample.st.addElement Sample.root (s "Q") [0, 0, 1, 0]).1 = .err ∧
    (Sample.st.addElement Sample.root (s "Q") [0]).2.domains.map Domain.elems = [[[0, 0, 0]], [[0]]] := by decide +kernel

/-! ## C26: refused operations change nothing -/

/-- The operations that can fail after having changed something: a sequence of elements with a wrong
path in the middle, a restoration on a hardware that fails, settings of arrays or synchronised ones. -/
def MayFailHalfway : DomOp → Prop
  | .setElementSequence .. => True
  | .restoreConfiguration .. => True
  | .setConfigurationParameter .. => True
  | .setParameter .. => True
  | .setElementBytes .. => True
  | .handleSet .. => True
  | .handleBytes .. => True
  | .setElementXml .. => True
  | .handleXml .. => True
  | .importDomains .. => True
  | .sync => True
  | _ => False

theorem St.onDomain_err {st : St} {name : Str} {f : Domain → Out (Domain × Attached)}
    (h : (st.onDomain name f).1 = .err) : (st.onDomain name f).2 = st := by
  unfold St.onDomain at h ⊢
  split
  · rfl
  · rename_i d hd
    rw [hd] at h
    dsimp only at h
    split
    · rename_i hx; rw [hx] at h; simp at h
    · rfl
    · rfl

/-- C26 (`_partial`: for the operations other than those of `MayFailHalfway`, for which see the
theorems below): an operation that reports a failure leaves the whole state as it was: names,
configurations, associations, settings, rules, last applied configurations and blackboard. -/
theorem C26_refused_changes_nothing_partial {env : Env} (wf : env.root.WF) {cs : List Criterion} {st : St}
    (h : Reachable env cs st) (op : DomOp) (hop : ¬ MayFailHalfway op) (he : (op.step env st).1 = .err) :
    (op.step env st).2 = st := by
  have inv := h.inv wf
  cases op with
  | createDomain name =>
    revert he; simp only [DomOp.step, St.createDomain]
    split <;> simp
  | deleteDomain name =>
    revert he; simp only [DomOp.step, St.deleteDomain]
    split <;> simp
  | deleteAllDomains => simp [DomOp.step, St.deleteAllDomains] at he
  | renameDomain name new =>
    revert he; simp only [DomOp.step, St.renameDomain]
    split
    · simp
    · split <;> simp
  | setSequenceAwareness name aware => exact St.onDomain_err he
  | createConfiguration dom name =>
    revert he
    simp only [DomOp.step, St.createConfiguration]
    split
    · simp
    · split <;> simp
  | deleteConfiguration dom name => exact St.onDomain_err he
  | renameConfiguration dom name new => exact St.onDomain_err he
  | saveConfiguration dom name => exact St.onDomain_err he
  | restoreConfiguration autoSync dom name => exact absurd trivial hop
  | addElement dom path =>
    revert he
    simp only [DomOp.step, St.atPath]
    split
    · simp
    · exact St.onDomain_err
  | removeElement dom path =>
    revert he
    simp only [DomOp.step, St.atPath]
    split
    · simp
    · exact St.onDomain_err
  | split dom path =>
    revert he
    simp only [DomOp.step, St.atPath]
    split
    · simp
    · unfold St.split
      split
      · simp
      · split <;> simp
  | setElementSequence dom name paths => exact absurd trivial hop
  | setApplicationRule dom name text =>
    refine C08_refused_rule_changes_nothing wf h dom name text ?_
    intro hx
    simp only [DomOp.step, hx] at he
    simp at he
  | clearApplicationRule dom name =>
    revert he
    simp only [DomOp.step, St.clearApplicationRule, St.onConfig]
    split
    · simp
    · split <;> simp
  | setConfigurationParameter ctx autoSync dom conf path text => exact absurd trivial hop
  | setParameter ctx autoSync path text => exact absurd trivial hop
  | setElementBytes autoSync path bytes => exact absurd trivial hop
  | handleSet p v => exact absurd trivial hop
  | handleBytes autoSync p bytes => exact absurd trivial hop
  | setElementXml ctx autoSync path doc => exact absurd trivial hop
  | handleXml ctx autoSync p doc => exact absurd trivial hop
  | importDomains withSettings doc => exact absurd trivial hop
  | importDomain overwrite withSettings doc =>
    refine St.importDomain_fail fun hk => ?_
    simp only [DomOp.step, hk] at he
    exact absurd he (by simp)
  | sync => exact absurd trivial hop
  | setCriterion i v => simp [DomOp.step, St.setCriterion] at he
  | askResync i => simp [DomOp.step, St.askResync] at he
  | apply force =>
    obtain ⟨b, log, h1, _⟩ := inv.apply_eq wf env.hw force
    simp [DomOp.step, h1] at he

/-- C26: a restoration refused for another reason than hardware errors changes nothing. -/
theorem C26_restore_refused {root : Elem} (st : St) (hw : Hardware) (autoSync : Bool) (dom name : Str)
    (he : (st.restoreConfiguration root hw autoSync dom name).1 = .err) :
    (st.restoreConfiguration root hw autoSync dom name).2 = st := by
  revert he
  unfold St.restoreConfiguration
  split
  · simp
  · split <;> simp

/-- C26: a sequence of elements, refused or not, changes nothing but the order of the areas of that
configuration: what is stored for each element stays. -/
theorem C26_sequence_only_order {env : Env} (wf : env.root.WF) {cs : List Criterion} {st : St} (h : Reachable env cs st)
    (dom name : Str) (paths : List Str) :
    (st.setElementSequence env.root dom name paths).2 = st ∨
    ∃ d c c', st.findDomain dom = some d ∧ d.findConfig name = some c ∧ c'.areas.Perm c.areas ∧
      c' = { c with areas := c'.areas } ∧
      (st.setElementSequence env.root dom name paths).2 = st.setDomain (d.setConfig c') := by
  have inv := h.inv wf
  unfold St.setElementSequence St.onConfig
  cases hd : st.findDomain dom with
  | none => exact .inl rfl
  | some d =>
    dsimp only
    cases hc : d.findConfig name with
    | none => exact .inl rfl
    | some c =>
      right
      have hok := (inv.good d (St.findDomain_mem hd).1).ok c (Domain.findConfig_mem hc).1
      have hperm := (sequenceLoop_spec (root := env.root) (paths := paths) (seen := []) (front := []) (back := c.areas)
        (by simpa using hok.nodup) rfl).1
      exact ⟨d, c, (c.setSequence env.root paths).2, rfl, hc, by simpa [Config.setSequence] using hperm, rfl, rfl⟩

/-- A refused sequence of elements can change the order: the second path is unknown, the first one is
moved. -/
theorem C26_sequence_half_done :
    (Sample.st.setElementSequence Sample.root (s "Q") (s "On") [s "/Sys/sub/on", s "/Sys/none"]).1 = .err ∧
    (Sample.st.setElementSequence Sample.root (s "Q") (s "On") [s "/Sys/sub/on", s "/Sys/none"]).2 ≠ Sample.st := by
  decide +kernel

/-- A restoration that reports the errors of the hardware is done nevertheless. -/
theorem C26_restore_reports_failure_but_done :
    let hw : Hardware := fun _ _ _ => some (s "broken")
    ((DomOp.restoreConfiguration true (s "V") (s "Loud")).step ⟨Sample.root, hw, .none⟩ Sample.st).1 = .err ∧
    ((DomOp.restoreConfiguration true (s "V") (s "Loud")).step ⟨Sample.root, hw, .none⟩ Sample.st).2.mem.main =
      [90, 0, 0, 0, 0, 0, 0, 0, 0, 0] := by decide +kernel

/-- A split that is refused by the domain is reported as a success. -/
theorem C26_split_refusal_not_reported :
    Sample.domV.split Sample.root Sample.st.attached [0, 0, 0] matches .err ∧
    (Sample.st.split Sample.root (s "V") [0, 0, 0]).1 = .ok () ∧
    (Sample.st.split Sample.root (s "V") [0, 0, 0]).2 = Sample.st := by decide +kernel

example : ¬ MayFailHalfway (.createConfiguration (s "V") (s "Loud")) ∧
    ((DomOp.createConfiguration (s "V") (s "Loud")).step Sample.env Sample.st).1 = .err :=
  ⟨fun h => h, by decide +kernel⟩

end PF
