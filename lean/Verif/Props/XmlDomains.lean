import Verif.Lemmas.XmlDeclares
import Verif.Lemmas.XmlRoundTrip
import Verif.Props.DomainHistory
import Verif.Spec.SampleDomain

/-!
# Domains in XML: imports, exports and their round trip (C62, C63, C64)
-/

namespace PF
open Spec

/-! ## C62: an accepted import gives the domains the document declares -/

/-- C62 (rules): an XML element is accepted as a rule exactly if it declares one, and it is the rule it
declares. -/
theorem C62_rule_iff (cs : List Criterion) (x : Xml) (r : Rule) : ruleFromXml cs x = .ok r ↔ DeclaresRule cs x r :=
  ruleFromXml_iff x

/-- C62 (all domains): after any history, an accepted import of a document with all the domains leaves
the domains the document declares, in its order and no others; it changes neither the parameters of the
system, nor the hardware, nor the criteria.  The settings of a domain whose configurations have
distinct names are those of the document (none with `withSettings = false`), those it does not give
being taken from the system. -/
theorem C62_import_all {env : Env} (wf : env.root.WF) (fd : env.root.FieldsDisjoint) {cs : List Criterion} {st : St}
    (h : Reachable env cs st) (withSettings : Bool) (doc : Xml)
    (hok : ((DomOp.importDomains withSettings doc).step env st).1 = .ok ()) :
    let st' := ((DomOp.importDomains withSettings doc).step env st).2
    doc.tag = s "ConfigurableDomains" ∧ (env.root.name ≠ [] → doc.attrText (s "SystemClassName") = env.root.name) ∧
    st'.mem = st.mem ∧ st'.criteria = st.criteria ∧ st'.domains.length = doc.children.length ∧
    ∀ (k : Nat) x d, doc.children[k]? = some x → st'.domains[k]? = some d →
      DeclaresDomain env.root st.criteria x d ∧
      ((d.configs.map Config.name).Nodup → (∀ c ∈ d.configs, c.name ≠ []) →
        DeclaresSettings env.root env.rd (some st.mem.main) (settingsElems withSettings x) d) := by
  obtain ⟨ds, att, n, gm, h1, h2, h3, h4, h5⟩ := (h.inv wf).importDomains_ok wf env.rd withSettings hok
  obtain ⟨_, _, _, _, hlen, hread⟩ := domainsFromXml_spec wf (by simp) h1
  have htags := domainsFromXml_tags h1
  have e : ((DomOp.importDomains withSettings doc).step env st).2 = _ := h2
  simp only [e]
  refine ⟨h4, h5, trivial, trivial, by simpa using hlen, ?_⟩
  intro k x d hx hd
  simp only [List.getElem?_map, Option.map_eq_some_iff] at hd
  obtain ⟨d0, hd0, rfl⟩ := hd
  obtain ⟨m, att0, aware, att1, m', f1, f2, f3⟩ := hread k x d0 hx hd0
  obtain ⟨g, g1, g2, g3, g4, g5⟩ := h3 d0 (List.mem_of_getElem? hd0)
  have hdec := Domain.fromXml_declares wf f1 (htags x (List.mem_of_getElem? hx)) f2 f3
  refine ⟨?_, ?_⟩
  · rw [g1]; exact hdec.mapSame g2
  · intro hn hne
    have hnames : (gm d0).configs.map Config.name = d0.configs.map Config.name := by
      rw [g1]
      show (d0.configs.map g).map Config.name = _
      rw [List.map_map]
      exact List.map_congr_left fun c hc => (g2 c hc).2.1
    have hv : ∀ c ∈ d0.configs, ∀ p a, c.area? p = some a → ∃ a', (g c).area? p = some a' ∧ (a.valid = true → a' = a) ∧
        (a.valid = false → NotGiven env.root p a' (some st.mem.main)) := by
      intro c hc p a ha
      obtain ⟨a', x1, x2, x3⟩ := g4 c hc p a ha
      refine ⟨a', x1, x2, fun hf => ⟨?_, x3 hf⟩⟩
      have hgc : g c ∈ (gm d0).configs := by rw [g1]; exact List.mem_map.2 ⟨c, hc, rfl⟩
      exact g5.valid _ hgc a' ((g5.ok _ hgc).area_iff.1 x1).1
    rw [g1]
    refine Domain.fromXml_settings wf fd f1 f3 (hnames ▸ hn) ?_ g2 _ hv
    intro c hc
    rw [← (g2 c hc).2.1]
    exact hne _ (by rw [g1]; exact List.mem_map.2 ⟨c, hc, rfl⟩)

/-- C62 (one domain): after any history, an accepted import of a document with one domain adds the domain
the document declares, behind the others.  It takes the place of the domain of that name, if there is
one, and then only if asked to.  All else is unchanged.  The settings of a domain whose configurations
have distinct names are those of the document; an element it gives no settings for, in any
configuration, has none that are valid. -/
theorem C62_import_one {env : Env} (wf : env.root.WF) (fd : env.root.FieldsDisjoint) {cs : List Criterion} {st : St}
    (h : Reachable env cs st) (overwrite withSettings : Bool) (doc : Xml)
    (hok : ((DomOp.importDomain overwrite withSettings doc).step env st).1 = .ok ())
    (hname : doc.nameAttr ≠ [] ∧ doc.nameAttr ≠ s "ConfigurableDomain") :
    let st' := ((DomOp.importDomain overwrite withSettings doc).step env st).2
    st'.mem = st.mem ∧ st'.criteria = st.criteria ∧
    ((∃ d ∈ st.domains, d.name = doc.nameAttr) → overwrite = true) ∧
    ∃ d, st'.domains = st.domains.filter (fun e => e.name ≠ doc.nameAttr) ++ [d] ∧
      DeclaresDomain env.root st.criteria doc d ∧
      ((d.configs.map Config.name).Nodup → (∀ c ∈ d.configs, c.name ≠ []) →
        DeclaresSettings env.root env.rd none (settingsElems withSettings doc) d) := by
  obtain ⟨aware, d, att, n, h1, h2, h3, h4⟩ := St.importDomain_ok hok
  have hinv := h.inv wf
  have hfr : ∀ p, (p, st.nextId) ∉ st.attached := fun p => hinv.fresh_attached p
  have hdec := Domain.fromXml_declares wf hfr h1 h2 h3
  have hset : (d.configs.map Config.name).Nodup → (∀ c ∈ d.configs, c.name ≠ []) →
      DeclaresSettings env.root env.rd none (settingsElems withSettings doc) d := by
    intro hn hne
    have := Domain.fromXml_settings wf fd hfr h3 hn hne (g := fun c => c) (fun c _ => .refl c) none
      (by
        intro c hc p a ha
        exact ⟨a, ha, fun _ => rfl, fun hf => hf⟩)
    simpa using this
  have hpn : ∀ e : Domain, e.pathName = doc.nameAttr ↔ e.name = doc.nameAttr := by
    intro e
    unfold Domain.pathName
    split
    · rfl
    · rename_i he
      have he : e.name = [] := by simpa using he
      rw [he]
      exact ⟨fun x => absurd x.symm hname.2, fun x => absurd x.symm hname.1⟩
  have e : ((DomOp.importDomain overwrite withSettings doc).step env st).2 =
    (st.importDomain env.root env.rd overwrite withSettings doc).2 := rfl
  rw [hdec.name] at h4
  rcases h4 with ⟨hf, hres⟩ | ⟨old, hf, how, hres⟩
  · have hno : ∀ e ∈ st.domains, e.name ≠ doc.nameAttr := by
      intro e he hen
      have := List.find?_eq_none.1 hf e he
      exact this (by simpa using (hpn e).2 hen)
    simp only [e, hres]
    refine ⟨trivial, trivial, ?_, d, ?_, hdec, hset⟩
    · rintro ⟨e, he, hen⟩
      exact absurd hen (hno e he)
    · rw [List.filter_eq_self.2]
      intro e he
      simpa using hno e he
  · obtain ⟨hm, hpo⟩ := St.findDomain_mem hf
    have hon := (hpn old).1 hpo
    simp only [e, hres]
    refine ⟨trivial, trivial, fun _ => how, d, ?_, hdec, hset⟩
    congr 1
    apply List.filter_congr
    intro e he
    have : e.id = old.id ↔ e.name = doc.nameAttr := by
      constructor
      · intro hid
        rw [nodup_map_inj hinv.ids he hm hid]
        exact hon
      · intro hen
        rw [C20_domain_names_partial wf h he hm (hen.trans hon.symm) (by rw [hen]; exact hname.1)]
    simp [this]

/-! ## C63: the export of domains and its import -/

theorem Reachable.exportable {env : Env} (wf : env.root.WF) (g : env.root.GoodNames) (hn : env.root.name ≠ [])
    {cs : List Criterion} {st : St} (h : Reachable env cs st) {d : Domain} (hd : d ∈ st.domains)
    (hnames : ∀ c ∈ d.configs, c.name ≠ [])
    (hrules : ∀ c ∈ d.configs, ∀ r, c.rule = some r → Writable st.criteria r) : d.Exportable env.root st.criteria := by
  have hi := h.inv wf
  refine ⟨hi.good d hd, hi.rules d hd, hrules, ?_, ?_, hnames⟩
  · intro p hp
    obtain ⟨e, he⟩ := (hi.good d hd).at_ p hp
    exact C31_path_round_trip env.root g hn he
  · have := nonempty_names_nodup (name := Config.name) (hi.good d hd).ids
      (fun a ha b hb hab hne => C20_configuration_names_partial wf h hd ha hb hab hne)
    rwa [List.filter_eq_self.2] at this
    intro x hx
    obtain ⟨c, hc, rfl⟩ := List.mem_map.1 hx
    simpa using hnames c hc

theorem Domain.xmlOf_names_distinct {d : Domain} {confs els sets : List Xml}
    (hc : confs.map Xml.nameAttr = d.configs.map Config.name) (hn : (d.configs.map Config.name).Nodup) :
    (d.xmlOf confs els sets).ConfigNamesDistinct := by
  intro y hy
  rw [Domain.xmlOf_configs] at hy
  obtain rfl : _ = y := by simpa using hy
  unfold Xml.NamesDistinct
  show ((confs.map Xml.nameAttr).filter _).Nodup
  rw [hc]
  exact hn.sublist List.filter_sublist

/-- The export of the domains and its import into any state that meets the invariants. -/
theorem round_trip_into {env : Env} (wf : env.root.WF) (fd : env.root.FieldsDisjoint) (g : env.root.GoodNames)
    (hn : env.root.name ≠ []) (hrd : ReadsDecimals env.rd) {cs : List Criterion} {st st2 : St} (h : Reachable env cs st)
    (hsn : SameNames cs st2.criteria) (hinv2 : st2.Inv env.root) (withSettings : Bool) (ctx : Ctx)
    (hraw : ctx.raw = true → withSettings = true → ∀ d ∈ st.domains, ∀ c ∈ d.configs, ∀ a ∈ c.areas, ∀ e,
      env.root.at? a.elem = some e → e.NonNegative a.board 0)
    (hnames : ∀ d ∈ st.domains, ∀ c ∈ d.configs, c.name ≠ [])
    (hrules : ∀ d ∈ st.domains, ∀ c ∈ d.configs, ∀ r, c.rule = some r → Writable st.criteria r)
    (hcarried : withSettings = true → ∀ d ∈ st.domains, ∀ c ∈ d.configs, ∀ a ∈ c.areas, ∀ e,
      env.root.at? a.elem = some e → e.Carried ctx a.board 0) :
    ∃ doc, st.exportDomains env.root ctx withSettings = .ok doc ∧
      (DomOp.importDomains withSettings doc).Regular env.root ∧
      ((DomOp.importDomains withSettings doc).step env st2).1 = .ok () ∧
      Alike (SameDomain SameHeading) st.domains ((DomOp.importDomains withSettings doc).step env st2).2.domains ∧
      (withSettings = true → Alike (SameDomain (SameConfig env.root)) st.domains
        ((DomOp.importDomains withSettings doc).step env st2).2.domains) := by
  replace hsn : SameNames st.criteria st2.criteria := h.sameNames.symm.trans hsn
  have hex : ∀ d ∈ st.domains, d.Exportable env.root st.criteria := fun d hd =>
    h.exportable wf g hn hd (hnames d hd) (hrules d hd)
  obtain ⟨xs, ds', att', m, k1, k2, k3, k4, k5⟩ := domainsToXml_read wf fd hrd hsn hex
    (fun hw d hd c hc a ha e he => ⟨hcarried hw d hd c hc a ha e he, fun h => hraw h hw d hd c hc a ha e he⟩)
    (n := st2.nextId) (att := []) (by simp)
  have hxn : xs.map Xml.nameAttr = st.domains.map Domain.name := k2.map_eq (by
    rintro d x ⟨confs, els, sets, rfl, _⟩
    exact Domain.xmlOf_name ..)
  obtain ⟨_, b2, _⟩ := domainsFromXml_spec wf (by simp) k3
  -- the validation against the main blackboard
  have key : ∀ d ∈ ds', ∃ d', Domain.validate env.root st2.mem.main d = some d' := by
    intro d hd
    obtain ⟨g, h1, _⟩ := Domain.validate_spec wf (b2 d hd).1 hinv2.main
    exact ⟨_, h1⟩
  have hm := mapAll_total key
  have hstep : (DomOp.importDomains withSettings
      (.mk (s "ConfigurableDomains") [(s "SystemClassName", env.root.name)] [] xs)).step env st2 =
      (.ok (), { st2 with domains := ds'.map fun d => (Domain.validate env.root st2.mem.main d).getD d,
                          attached := att', nextId := m }) := by
    have hcl := hinv2.clean
    have hid : st2.deleteAllDomains.2.nextId = st2.nextId := rfl
    have ha : (Xml.mk (s "ConfigurableDomains") [(s "SystemClassName", env.root.name)] [] xs).attrText (s "SystemClassName")
        = env.root.name := by simp [Xml.attrText, Xml.attr, Xml.attrs]
    simp only [DomOp.step, St.importDomains, Xml.tag, ne_eq, not_true_eq_false, if_false, ha, and_false, hcl, hid,
      Xml.children, k3, hm]
    rfl
  refine ⟨_, by simp only [St.exportDomains, k1, Out.bind]; rfl, ⟨?_, ?_⟩, by rw [hstep], ?_, ?_⟩
  · show ((xs.map Xml.nameAttr).filter _).Nodup
    rw [hxn]
    exact nonempty_names_nodup (h.inv wf).ids (fun a ha b hb hab hne => C20_domain_names_partial wf h ha hb hab hne)
  · intro x hx
    obtain ⟨d, hd, confs, els, sets, rfl, hc⟩ := k2.left hx
    exact Domain.xmlOf_names_distinct hc (hex d hd).names
  · rw [hstep]
    apply k4.map
    intro d _ d' hd' hs
    obtain ⟨gv, v1, v2, _⟩ := Domain.validate_spec wf (b2 d' hd').1 hinv2.main
    rw [v1]
    refine ⟨hs.1, hs.2.1, hs.2.2.1, ?_⟩
    apply hs.2.2.2.map
    intro a _ b hb hab
    have := v2 b hb
    exact ⟨this.2.1.trans hab.1, this.2.2.trans hab.2⟩
  · intro hw
    rw [hstep]
    apply (k5 hw).map
    intro d _ d' hd' hs
    have hval : ∀ c ∈ d'.configs, ∀ a ∈ c.areas, a.valid = true := by
      intro c hc
      obtain ⟨c0, _, h0⟩ := hs.2.2.2.left hc
      exact h0.valid
    rw [Domain.validate_id hval]
    exact hs

/-- C63: after any history, the domains can be exported, and the document can be imported after any other
history of a system with the same structure and criteria: the import is accepted and leaves the same
domains in the same order, with the same names, awareness, elements, configurations and rules and, if
the settings are part of the document, with the same value of every parameter in every configuration.
Needed: the names in the structure are distinct enough for paths (`GoodNames`, C31), the configurations
have names, the rules and the settings are such that texts carry them (see C06 and C53 for those that are
not; the text of decimals is read exactly); settings exported in raw value space have no negative number of an
enumeration, which the import does not take (`C53_raw_export_not_importable`).  `_partial` because of these numbers and of
the rules with several values, whose text is lost (`C63_composite_value_lost`). -/
theorem C63_round_trip_partial {env : Env} (wf : env.root.WF) (fd : env.root.FieldsDisjoint) (g : env.root.GoodNames)
    (hn : env.root.name ≠ []) (hrd : ReadsDecimals env.rd) {cs : List Criterion} {st st2 : St} (h : Reachable env cs st)
    (h2 : Reachable env cs st2) (withSettings : Bool) (ctx : Ctx)
    (hraw : ctx.raw = true → withSettings = true → ∀ d ∈ st.domains, ∀ c ∈ d.configs, ∀ a ∈ c.areas, ∀ e,
      env.root.at? a.elem = some e → e.NonNegative a.board 0)
    (hnames : ∀ d ∈ st.domains, ∀ c ∈ d.configs, c.name ≠ [])
    (hrules : ∀ d ∈ st.domains, ∀ c ∈ d.configs, ∀ r, c.rule = some r → Writable st.criteria r)
    (hcarried : withSettings = true → ∀ d ∈ st.domains, ∀ c ∈ d.configs, ∀ a ∈ c.areas, ∀ e,
      env.root.at? a.elem = some e → e.Carried ctx a.board 0) :
    ∃ doc, st.exportDomains env.root ctx withSettings = .ok doc ∧
      (DomOp.importDomains withSettings doc).Regular env.root ∧
      ((DomOp.importDomains withSettings doc).step env st2).1 = .ok () ∧
      Alike (SameDomain SameHeading) st.domains ((DomOp.importDomains withSettings doc).step env st2).2.domains ∧
      (withSettings = true → Alike (SameDomain (SameConfig env.root)) st.domains
        ((DomOp.importDomains withSettings doc).step env st2).2.domains) :=
  round_trip_into wf fd g hn hrd h h2.sameNames (h2.inv wf) withSettings ctx hraw hnames hrules hcarried

/-- C63 (one domain): the same for the export of one domain and its import, which puts it behind the other
domains; it takes the place of the domain of that name (if asked to). -/
theorem C63_round_trip_one_partial {env : Env} (wf : env.root.WF) (fd : env.root.FieldsDisjoint) (g : env.root.GoodNames)
    (hn : env.root.name ≠ []) (hrd : ReadsDecimals env.rd) {cs : List Criterion} {st st2 : St} (h : Reachable env cs st)
    (h2 : Reachable env cs st2) (withSettings : Bool) (ctx : Ctx) {d : Domain}
    (hraw : ctx.raw = true → withSettings = true → ∀ c ∈ d.configs, ∀ a ∈ c.areas, ∀ e,
      env.root.at? a.elem = some e → e.NonNegative a.board 0) (hd : d ∈ st.domains) (hdn : d.name ≠ []) (hdc : d.name ≠ s "ConfigurableDomain")
    (hnames : ∀ c ∈ d.configs, c.name ≠ [])
    (hrules : ∀ c ∈ d.configs, ∀ r, c.rule = some r → Writable st.criteria r)
    (hcarried : withSettings = true → ∀ c ∈ d.configs, ∀ a ∈ c.areas, ∀ e,
      env.root.at? a.elem = some e → e.Carried ctx a.board 0)
    (overwrite : Bool) (how : overwrite = true ∨ ∀ e ∈ st2.domains, e.name ≠ d.name) :
    ∃ doc, st.exportDomain env.root ctx withSettings d.name = .ok doc ∧
      ((DomOp.importDomain overwrite withSettings doc).step env st2).1 = .ok () ∧
      ∃ d', ((DomOp.importDomain overwrite withSettings doc).step env st2).2.domains =
          st2.domains.filter (fun e => e.name ≠ d.name) ++ [d'] ∧
        SameDomain SameHeading d d' ∧ (withSettings = true → SameDomain (SameConfig env.root) d d') := by
  have hsn : SameNames st.criteria st2.criteria := h.sameNames.symm.trans h2.sameNames
  have hex := h.exportable wf g hn hd hnames hrules
  have hinv2 := h2.inv wf
  obtain ⟨confs, els, sets, d', att', m, k1, k2, k3, k4, k5⟩ := Domain.toXml_read wf fd hrd hsn hex
    (fun hw c hc a ha e he => ⟨hcarried hw c hc a ha e he, fun h => hraw h hw c hc a ha e he⟩)
    (fun p => hinv2.fresh_attached p)
  have hfind : st.findDomain d.name = some d := by
    have hpn : d.pathName = d.name := by simp [Domain.pathName, hdn]
    cases hf : st.findDomain d.name with
    | none =>
      have := List.find?_eq_none.1 hf d hd
      simp [hpn] at this
    | some e =>
      obtain ⟨he, hep⟩ := St.findDomain_mem hf
      have : e.name = d.name := by
        unfold Domain.pathName at hep
        split at hep
        · exact hep
        · exact absurd hep.symm hdc
      rw [C20_domain_names_partial wf h he hd this (by rw [this]; exact hdn)]
  have hdoc : st.exportDomain env.root ctx withSettings d.name = .ok (d.xmlOf confs els sets) := by
    simp only [St.exportDomain, hfind, k1]
  have hok : ((DomOp.importDomain overwrite withSettings (d.xmlOf confs els sets)).step env st2).1 = .ok () := by
    have ht : (d.xmlOf confs els sets).tag = s "ConfigurableDomain" := rfl
    simp only [DomOp.step, St.importDomain, ht, ne_eq, not_true_eq_false, if_false, Domain.xmlOf_aware, k3]
    split
    · rfl
    · rename_i old hold
      rcases how with rfl | how
      · rfl
      · exfalso
        obtain ⟨ho, hop⟩ := St.findDomain_mem hold
        rw [k4.1] at hop
        unfold Domain.pathName at hop
        split at hop
        · exact how old ho hop
        · exact hdc hop.symm
  refine ⟨_, hdoc, hok, d', ?_, k4, k5⟩
  obtain ⟨_, _, _, d1, hd1, _⟩ := C62_import_one wf fd h2 overwrite withSettings _ hok
    (by rw [Domain.xmlOf_name]; exact ⟨hdn, hdc⟩)
  obtain ⟨aware, d2, att2, n2, i1, i2, i3, i4⟩ := St.importDomain_ok hok
  rw [Domain.xmlOf_aware] at i2
  obtain rfl : d.seqAware = aware := by simpa using i2
  rw [k3] at i3
  obtain ⟨rfl, rfl, rfl⟩ : d' = d2 ∧ att' = att2 ∧ m = n2 := by simpa using i3
  rw [Domain.xmlOf_name] at hd1
  rw [hd1]
  congr 1
  have hd1' : (st2.importDomain env.root env.rd overwrite withSettings (d.xmlOf confs els sets)).2.domains = _ := hd1
  rcases i4 with ⟨_, hres⟩ | ⟨_, _, _, hres⟩
  all_goals
    rw [hres] at hd1'
    have := List.append_inj' hd1' rfl
    simpa using this.2.symm

/-! ## C64: what an import changes when it is refused, and what it never changes -/

/-- C64: whatever the document and whatever the outcome, an import of domains changes neither a parameter
of the system, nor the hardware, nor a criterion. -/
theorem C64_imports_keep_parameters (env : Env) (st : St) (overwrite withSettings : Bool) (doc : Xml) :
    let all := ((DomOp.importDomains withSettings doc).step env st).2
    let one := ((DomOp.importDomain overwrite withSettings doc).step env st).2
    all.mem = st.mem ∧ all.criteria = st.criteria ∧ one.mem = st.mem ∧ one.criteria = st.criteria :=
  ⟨St.importDomains_mem .., DomOp.step_criteria env st _ (by simp) (by simp), St.importDomain_mem ..,
    DomOp.step_criteria env st _ (by simp) (by simp)⟩

/-- C64: an import of one domain that is refused changes nothing; one of all the domains leaves no domain. -/
theorem C64_refused (env : Env) (st : St) (overwrite withSettings : Bool) (doc : Xml) :
    (((DomOp.importDomain overwrite withSettings doc).step env st).1 = .err →
      ((DomOp.importDomain overwrite withSettings doc).step env st).2 = st) ∧
    (((DomOp.importDomains withSettings doc).step env st).1 = .err →
      ((DomOp.importDomains withSettings doc).step env st).2.domains = []) := by
  refine ⟨fun h => St.importDomain_fail ?_, fun h => ?_⟩
  · intro hk
    have h : (st.importDomain env.root env.rd overwrite withSettings doc).1 = .err := h
    rw [hk] at h; simp at h
  · have : ((DomOp.importDomains withSettings doc).step env st).2 = st.deleteAllDomains.2 := by
      refine St.importDomains_fail ?_
      intro hk
      have h : (st.importDomains env.root env.rd withSettings doc).1 = .err := h
      rw [hk] at h; simp at h
    rw [this]
    rfl

/-- C64: a domain of that name is never replaced unless asked to. -/
theorem C64_no_overwrite {env : Env} (wf : env.root.WF) (fd : env.root.FieldsDisjoint) {cs : List Criterion} {st : St}
    (h : Reachable env cs st) (withSettings : Bool) (doc : Xml) {d : Domain} (hd : d ∈ st.domains)
    (hname : doc.nameAttr ≠ [] ∧ doc.nameAttr ≠ s "ConfigurableDomain") (hn : d.name = doc.nameAttr) :
    ((DomOp.importDomain false withSettings doc).step env st).1 ≠ .ok () := by
  intro hok
  have := (C62_import_one wf fd h false withSettings doc hok hname).2.2.1 ⟨d, hd, hn⟩
  simp at this

/-- C64: documents of the shape of the schema stop no import, whatever they say. -/
theorem C64_no_stop {env : Env} (wf : env.root.WF) {cs : List Criterion} {st : St} (h : Reachable env cs st)
    (overwrite withSettings : Bool) (doc : Xml) :
    ((∀ x ∈ doc.children, DomainShape x) → ((DomOp.importDomains withSettings doc).step env st).1 ≠ .abort) ∧
    (DomainShape doc → ((DomOp.importDomain overwrite withSettings doc).step env st).1 ≠ .abort) :=
  ⟨fun hs => (h.inv wf).importDomains_safe wf env.rd withSettings hs,
    fun hs => (h.inv wf).importDomain_safe wf env.rd overwrite withSettings hs⟩

/-- C64: after an accepted import of all the domains every configuration has valid settings for all its
elements, whatever the document gives. -/
theorem C64_all_valid {env : Env} (wf : env.root.WF) {cs : List Criterion} {st : St} (h : Reachable env cs st)
    (withSettings : Bool) (doc : Xml) (hok : ((DomOp.importDomains withSettings doc).step env st).1 = .ok ()) :
    ∀ d ∈ ((DomOp.importDomains withSettings doc).step env st).2.domains, ∀ c ∈ d.configs,
      (∀ p, p ∈ d.elems ↔ p ∈ c.areas.map Area.elem) ∧ ∀ a ∈ c.areas, a.valid = true := by
  obtain ⟨ds, att, n, gm, h1, h2, h3, h4, h5⟩ := (h.inv wf).importDomains_ok wf env.rd withSettings hok
  have e : ((DomOp.importDomains withSettings doc).step env st).2 = _ := h2
  rw [e]
  intro d hd c hc
  obtain ⟨d0, hd0, rfl⟩ := List.mem_map.1 hd
  obtain ⟨g, _, _, _, _, good⟩ := h3 d0 hd0
  exact ⟨fun p => ((good.ok c hc).mem p).symm, good.valid c hc⟩

/-! ## The hypotheses can be met -/

namespace Sample

/-- The sample structure with an exact reader of decimals. -/
noncomputable def exactEnv : Env := ⟨root, fun _ _ _ => none, Classical.choose ReadsDecimals.exists⟩

theorem exact_reachable : Reachable exactEnv criteria st := by
  have h1 : run exactEnv ops (St.initial root criteria) = st := by decide +kernel
  have h2 : runs exactEnv ops (St.initial root criteria) = true := by decide +kernel
  exact h1 ▸ run_reachable .start h2

theorem writable {d : Domain} (hd : d ∈ st.domains) {c : Config} (hc : c ∈ d.configs) {r : Rule} (hr : c.rule = some r) :
    Writable st.criteria r := by
  have hd : d = domV ∨ d = domQ := by simpa [st] using hd
  have hc : c = loud ∨ c = calm ∨ c = on ∨ c = off := by
    rcases hd with rfl | rfl
    · have : c = loud ∨ c = calm := by simpa [domV] using hc
      rcases this with h | h <;> simp [h]
    · have : c = on ∨ c = off := by simpa [domQ] using hc
      rcases this with h | h <;> simp [h]
  rcases hc with rfl | rfl | rfl | rfl
  · obtain rfl : Rule.compound true [.crit 1 .is 0#32] = r := by simpa [loud] using hr
    refine .compound ?_
    intro x hx
    obtain rfl : x = .crit 1 .is 0#32 := by simpa using hx
    refine .crit (c := criteria[1]) (l := s "Idle") rfl (by decide) ?_ (by decide) (by decide)
    intro j c' hj hc'
    have : j = 0 := by omega
    subst this
    obtain rfl : criteria[0] = c' := by simpa [st, criteria] using hc'
    decide
  · obtain rfl : Rule.compound false [.crit 0 .includes 4#32] = r := by simpa [calm] using hr
    refine .compound ?_
    intro x hx
    obtain rfl : x = .crit 0 .includes 4#32 := by simpa using hx
    exact .crit (c := criteria[0]) (l := s "B") rfl (by decide) (fun j _ hj _ => absurd hj (Nat.not_lt_zero j)) (by decide)
      (by decide)
  · obtain rfl : Rule.compound true [] = r := by simpa [on] using hr
    exact .compound (by simp)
  · simp [off] at hr

theorem areas_carried {d : Domain} (hd : d ∈ st.domains) {c : Config} (hc : c ∈ d.configs) {a : Area} (ha : a ∈ c.areas)
    {e : Elem} (he : root.at? a.elem = some e) {ctx : Ctx} : e.Carried ctx a.board 0 := by
  have hd : d = domV ∨ d = domQ := by simpa [st] using hd
  have hc : c = loud ∨ c = calm ∨ c = on ∨ c = off := by
    rcases hd with rfl | rfl
    · have : c = loud ∨ c = calm := by simpa [domV] using hc
      rcases this with h | h <;> simp [h]
    · have : c = on ∨ c = off := by simpa [domQ] using hc
      rcases this with h | h <;> simp [h]
  have ha : (a.elem = [0, 0, 0] ∧ (a.board = [90, 0] ∨ a.board = [7, 0])) ∨ (a.elem = [0, 0, 1] ∧ a.board = [32]) ∨
      (a.elem = [0, 1] ∧ a.board = [1]) := by
    rcases hc with rfl | rfl | rfl | rfl
    · have : a = ⟨[0, 0, 0], [90, 0], true⟩ := by simpa [loud] using ha
      simp [this]
    · have : a = ⟨[0, 0, 0], [7, 0], true⟩ := by simpa [calm] using ha
      simp [this]
    · have : a = ⟨[0, 0, 1], [32], true⟩ ∨ a = ⟨[0, 1], [1], true⟩ := by simpa [on] using ha
      rcases this with h | h <;> simp [h]
    · have : a = ⟨[0, 0, 1], [32], true⟩ ∨ a = ⟨[0, 1], [1], true⟩ := by simpa [off] using ha
      rcases this with h | h <;> simp [h]
  intro q f o hq ho
  rcases ha with ⟨h1, h2⟩ | ⟨h1, h2⟩ | ⟨h1, h2⟩
  · rw [h1] at he
    obtain rfl : Elem.mk (s "vol") (.scalar int16) (some 1) [] = e := by simpa [root, component, Elem.at?] using he
    cases q with
    | cons i q => simp [Elem.at?] at hq
    | nil =>
      obtain rfl : Elem.mk (s "vol") (.scalar int16) (some 1) [] = f := by simpa [Elem.at?] using hq
      obtain rfl : 0 = o := by simpa [Elem.offset] using ho
      refine ⟨⟨by decide, by decide, by decide, by decide⟩, ?_⟩
      intro bs hbs
      simp only [int16, ScalarType.size] at hbs
      rcases h2 with h2 | h2
      · obtain rfl : [90, 0] = bs := by
          have : Board.read [90, 0] 0 2 = some [90, 0] := by decide
          rw [h2, this] at hbs; simpa using hbs
        simp only [int16, ScalarType.Carried]; decide
      · obtain rfl : [7, 0] = bs := by
          have : Board.read [7, 0] 0 2 = some [7, 0] := by decide
          rw [h2, this] at hbs; simpa using hbs
        simp only [int16, ScalarType.Carried]; decide
  · rw [h1] at he
    obtain rfl : block = e := by simpa [root, component, Elem.at?] using he
    have h32 : ∀ bs, Board.read [32] 0 1 = some bs → bs = [32] := by
      intro bs hbs
      have : Board.read [32] 0 1 = some [32] := by decide
      rw [this] at hbs; simpa using hbs.symm
    match q with
    | [] =>
      obtain rfl : block = f := by simpa [Elem.at?] using hq
      trivial
    | [0] =>
      obtain rfl : Elem.mk (s "a") (.bit fieldA) none [] = f := by simpa [block, Elem.at?] using hq
      obtain rfl : 0 = o := by simpa [block, Elem.offset, Elem.footprints, Elem.footprint, EKind.ownSize] using ho
      intro bs hbs
      rw [h2] at hbs
      rw [h32 bs hbs]
      decide
    | [1] =>
      obtain rfl : Elem.mk (s "b") (.bit fieldB) none [] = f := by simpa [block, Elem.at?] using hq
      obtain rfl : 0 = o := by simpa [block, Elem.offset, Elem.footprints, Elem.footprint, EKind.ownSize] using ho
      intro bs hbs
      rw [h2] at hbs
      rw [h32 bs hbs]
      decide
    | 0 :: _ :: _ => simp [block, Elem.at?] at hq
    | 1 :: _ :: _ => simp [block, Elem.at?] at hq
    | (n + 2) :: _ => simp [block, Elem.at?] at hq
  · rw [h1] at he
    obtain rfl : Elem.mk (s "on") (.scalar .bool) (some 2) [] = e := by simpa [root, component, Elem.at?] using he
    cases q with
    | cons i q => simp [Elem.at?] at hq
    | nil =>
      obtain rfl : Elem.mk (s "on") (.scalar .bool) (some 2) [] = f := by simpa [Elem.at?] using hq
      exact ⟨trivial, fun _ _ => trivial⟩

theorem named {d : Domain} (hd : d ∈ st.domains) {c : Config} (hc : c ∈ d.configs) : c.name ≠ [] := by
  have : ∀ d ∈ st.domains, ∀ c ∈ d.configs, c.name ≠ [] := by decide +kernel
  exact this d hd c hc

theorem areas_nonNegative {d : Domain} (hd : d ∈ st.domains) {c : Config} (hc : c ∈ d.configs) {a : Area} (ha : a ∈ c.areas)
    {e : Elem} (he : root.at? a.elem = some e) : e.NonNegative a.board 0 := by
  have hel : a.elem = [0, 0, 0] ∨ a.elem = [0, 0, 1] ∨ a.elem = [0, 1] := by
    have : ∀ d ∈ st.domains, ∀ c ∈ d.configs, ∀ a ∈ c.areas,
        a.elem = [0, 0, 0] ∨ a.elem = [0, 0, 1] ∨ a.elem = [0, 1] := by decide +kernel
    exact this d hd c hc a ha
  intro q f o hq _
  rcases hel with h1 | h1 | h1
  · rw [h1] at he
    obtain rfl : Elem.mk (s "vol") (.scalar int16) (some 1) [] = e := by simpa [root, component, Elem.at?] using he
    cases q with
    | cons i q => simp [Elem.at?] at hq
    | nil =>
      obtain rfl : Elem.mk (s "vol") (.scalar int16) (some 1) [] = f := by simpa [Elem.at?] using hq
      exact fun _ _ => trivial
  · rw [h1] at he
    obtain rfl : block = e := by simpa [root, component, Elem.at?] using he
    match q with
    | [] =>
      obtain rfl : block = f := by simpa [Elem.at?] using hq
      trivial
    | [0] =>
      obtain rfl : Elem.mk (s "a") (.bit fieldA) none [] = f := by simpa [block, Elem.at?] using hq
      trivial
    | [1] =>
      obtain rfl : Elem.mk (s "b") (.bit fieldB) none [] = f := by simpa [block, Elem.at?] using hq
      trivial
    | 0 :: _ :: _ => simp [block, Elem.at?] at hq
    | 1 :: _ :: _ => simp [block, Elem.at?] at hq
    | (n + 2) :: _ => simp [block, Elem.at?] at hq
  · rw [h1] at he
    obtain rfl : Elem.mk (s "on") (.scalar .bool) (some 2) [] = e := by simpa [root, component, Elem.at?] using he
    cases q with
    | cons i q => simp [Elem.at?] at hq
    | nil =>
      obtain rfl : Elem.mk (s "on") (.scalar .bool) (some 2) [] = f := by simpa [Elem.at?] using hq
      exact fun _ _ => trivial

/-- The round trip of the sample domains, exported in raw value space with hexadecimal texts. -/
example : ∃ doc, st.exportDomains root ⟨true, true⟩ true = .ok doc ∧
    ((DomOp.importDomains true doc).step exactEnv (St.initial root criteria)).1 = .ok () ∧
    Alike (SameDomain (SameConfig root)) st.domains
      ((DomOp.importDomains true doc).step exactEnv (St.initial root criteria)).2.domains := by
  obtain ⟨doc, h1, _, h2, _, h3⟩ := C63_round_trip_partial (env := exactEnv) wf fieldsDisjoint goodNames (by decide)
    (Classical.choose_spec ReadsDecimals.exists) exact_reachable .start true ⟨true, true⟩
    (fun _ _ d hd c hc a ha e he => areas_nonNegative hd hc ha he) (fun d hd c hc => named hd hc)
    (fun d hd c hc r hr => writable hd hc hr) (fun _ d hd c hc a ha e he => areas_carried hd hc ha he)
  exact ⟨doc, h1, h2, h3 rfl⟩

/-- The round trip of the sample domains. -/
example : ∃ doc, st.exportDomains root ctx true = .ok doc ∧
    ((DomOp.importDomains true doc).step exactEnv (St.initial root criteria)).1 = .ok () ∧
    Alike (SameDomain (SameConfig root)) st.domains
      ((DomOp.importDomains true doc).step exactEnv (St.initial root criteria)).2.domains := by
  obtain ⟨doc, h1, _, h2, _, h3⟩ := C63_round_trip_partial (env := exactEnv) wf fieldsDisjoint goodNames (by decide)
    (Classical.choose_spec ReadsDecimals.exists) exact_reachable .start true ctx (by simp [ctx]) (fun d hd c hc => named hd hc)
    (fun d hd c hc r hr => writable hd hc hr) (fun _ d hd c hc a ha e he => areas_carried hd hc ha he)
  exact ⟨doc, h1, h2, h3 rfl⟩

/-- The result of an export, or an empty document. -/
def exported (ctx : Ctx) (withSettings : Bool) (st : St) : Xml :=
  match st.exportDomains root ctx withSettings with
  | .ok doc => doc
  | _ => .mk [] [] [] []

/-- Exported and imported in a system without domains, the sample domains are the same but for the addresses. -/
example : ((DomOp.importDomains true (exported ctx true st)).step env (St.initial root criteria)).1 = .ok () ∧
    ((DomOp.importDomains true (exported ctx true st)).step env (St.initial root criteria)).2.domains = st.domains := by
  decide +kernel

/-- An element with a path. -/
def pathElem (path : Str) (xs : List Xml) : Xml := .mk (s "ConfigurableElement") [(s "Path", path)] [] xs

/-- The settings of the volume. -/
def volume (text : Str) : Xml :=
  pathElem (s "/Sys/sub/comp/vol") [.mk (s "IntegerParameter") [(s "Name", s "vol")] text []]

/-- A domain with two configurations, the volume and the switch; the settings give the volume in one
configuration only. -/
def someDomain (name : Str) (sets : List Xml) : Xml :=
  .mk (s "ConfigurableDomain") [(s "Name", name), (s "SequenceAware", s "true")] []
    [.mk (s "Configurations") [] [] [
      .mk (s "Configuration") [(s "Name", s "A")] [] [.mk (s "CompoundRule") [(s "Type", s "All")] [] [
        .mk (s "SelectionCriterionRule") [(s "SelectionCriterion", s "Mode"), (s "MatchesWhen", s "IsNot"), (s "Value", s "Idle")] [] []]],
      .mk (s "Configuration") [(s "Name", s "B")] [] []],
     .mk (s "ConfigurableElements") [] [] [pathElem (s "/Sys/sub/comp/vol") [], pathElem (s "/Sys/sub/on") []],
     .mk (s "Settings") [] [] sets]

/-- A document with domains. -/
def someDomains (xs : List Xml) : Xml := .mk (s "ConfigurableDomains") [(s "SystemClassName", s "Sys")] [] xs

/-- The settings of the document in `C62`. -/
def someSettings : List Xml := [.mk (s "Configuration") [(s "Name", s "B")] [] [volume (s "-2")]]

/-- A document with one domain: the volume is given in one configuration and goes to both; the switch comes
from the system, where it is on. -/
example :
    let st' := (DomOp.setParameter ctx false (s "/Sys/sub/on") (s "1")).step env st
    let r := (DomOp.importDomains true (someDomains [someDomain (s "D") someSettings])).step env st'.2
    r.1 = .ok () ∧ r.2.domains.map Domain.name = [s "D"] ∧
    r.2.domains.map Domain.seqAware = [true] ∧
    r.2.domains.map (fun d => d.configs.map Config.rule) = [[some (.compound true [.crit 1 .isNot 0#32]), none]] ∧
    r.2.domains.map (fun d => d.configs.map Config.areas) =
      [[[⟨[0, 0, 0], [0xFE, 0xFF], true⟩, ⟨[0, 1], [1], true⟩], [⟨[0, 0, 0], [0xFE, 0xFF], true⟩, ⟨[0, 1], [1], true⟩]]] := by
  decide +kernel

/-- The names of the configurations are distinct and not empty. -/
example :
    let r := (DomOp.importDomain false true (someDomain (s "D") someSettings)).step env st
    r.1 = .ok () ∧ r.2.domains.map Domain.name = [s "V", s "Q", s "D"] ∧
      ∀ d ∈ r.2.domains, (d.configs.map Config.name).Nodup ∧ ∀ c ∈ d.configs, c.name ≠ [] := by decide +kernel

example : DeclaresRule criteria
    (.mk (s "SelectionCriterionRule") [(s "SelectionCriterion", s "Device"), (s "MatchesWhen", s "Includes"), (s "Value", s "A|B")] [] [])
    (.crit 0 .includes 5#32) :=
  .crit rfl (c := criteria[0]) rfl (by decide) (fun _ _ hj _ => absurd hj (Nat.not_lt_zero _)) (by decide) (.inl rfl) (by decide)

end Sample

/-! ## Findings -/

/-- C63: a rule on several values of a criterion is exported without them, and read back as a rule on no
value. -/
theorem C63_composite_value_lost :
    let st := ((DomOp.setApplicationRule (s "V") (s "Loud") (s "All{Device Is A|B}")).step Sample.env Sample.st).2
    let st' := ((DomOp.importDomains true (Sample.exported Sample.ctx true st)).step Sample.env st)
    st.getApplicationRule (s "V") (s "Loud") = some (s "All{Device Is }") ∧
    (st.findDomain (s "V")).map (fun d => d.configs.map Config.rule) =
      some [some (.compound true [.crit 0 .is 5#32]), some (.compound false [.crit 0 .includes 4#32])] ∧
    st'.1 = .ok () ∧
    (st'.2.findDomain (s "V")).map (fun d => d.configs.map Config.rule) =
      some [some (.compound true [.crit 0 .is 0#32]), some (.compound false [.crit 0 .includes 4#32])] := by
  decide +kernel

/-- C63: a domain with a configuration without name is exported, but the import of the document is refused:
and then all the domains are lost. -/
theorem C63_unnamed_configuration_refused :
    let st := ((DomOp.createConfiguration (s "V") []).step Sample.env Sample.st).2
    let st' := (DomOp.importDomains true (Sample.exported Sample.ctx true st)).step Sample.env st
    st.domains.map Domain.name = [s "V", s "Q"] ∧ st'.1 = .err ∧ st'.2.domains = [] := by
  decide +kernel

/-- C64: a document for another system is refused after all the domains were destroyed. -/
theorem C64_wrong_system_destroys_domains :
    let st' := (DomOp.importDomains true (.mk (s "ConfigurableDomains") [(s "SystemClassName", s "Other")] [] [])).step
      Sample.env Sample.st
    st'.1 = .err ∧ st'.2.domains = [] := by decide +kernel

/-- C20: a document with two domains of the same name, or two configurations of the same name in a domain, is
accepted (without schema validation). -/
theorem C20_import_duplicates :
    let d := Sample.someDomain (s "D") Sample.someSettings
    let st' := (DomOp.importDomains true (Sample.someDomains [d, d])).step Sample.env Sample.st
    st'.1 = .ok () ∧ st'.2.domains.map Domain.name = [s "D", s "D"] := by decide +kernel

/-- C20: an import of a domain named `ConfigurableDomain` destroys a domain without name when it is asked to
overwrite, and leaves the one that has the name. -/
theorem C20_import_overwrites_unnamed :
    let st := Sample.run Sample.env [.createDomain [], .createDomain (s "X"), .renameDomain (s "X") (s "ConfigurableDomain")]
      (St.initial Sample.root [])
    let st' := (DomOp.importDomain true true
      (.mk (s "ConfigurableDomain") [(s "Name", s "ConfigurableDomain")] []
        [.mk (s "Configurations") [] [] [], .mk (s "ConfigurableElements") [] [] []])).step Sample.env st
    st.domains.map Domain.name = [[], s "ConfigurableDomain"] ∧ st'.1 = .ok () ∧
      st'.2.domains.map Domain.name = [s "ConfigurableDomain", s "ConfigurableDomain"] := by decide +kernel

/-- C19: after the import of one domain that gives no settings for an element, the settings of the element are
not valid in any configuration. -/
theorem C19_single_import_invalid :
    let st' := (DomOp.importDomain false true (Sample.someDomain (s "D") Sample.someSettings)).step Sample.env Sample.st
    st'.1 = .ok () ∧ (st'.2.findDomain (s "D")).map (fun d => d.configs.map fun c => c.areas.map fun a => (a.elem, a.valid)) =
      some [[([0, 0, 0], true), ([0, 1], false)], [([0, 0, 0], true), ([0, 1], false)]] := by decide +kernel

end PF
