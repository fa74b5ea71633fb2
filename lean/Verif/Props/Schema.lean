import Verif.Lemmas.Regex
import Verif.Lemmas.SchemaDomain
import Verif.Props.XmlDomains
import Verif.Props.Start

/-!
# Domains and the schemas that are shipped (C88)
-/

namespace PF
open Spec

theorem Reachable.domain_valid {env : Env} (wf : env.root.WF) (g : env.root.GoodNames)
    (names : ∀ q f, env.root.at? q = some f → NMToken f.name) {cs : List Criterion} {st : St} (h : Reachable env cs st) {d : Domain}
    (hd : d ∈ st.domains) (hk : DomainKnown env.root st.criteria d) {ctx : Ctx} {ws : Bool}
    (hs : ws = true → SettingsKnown env.root ctx d) {x : Xml} (hx : d.toXml env.root st.criteria ctx ws = .ok x) :
    DomainElement x ∧ x.attr (s "Name") = some d.name := by
  have hi := h.inv wf
  have hne : env.root.name ≠ [] := (names [] env.root (by cases env.root; rfl)).1
  refine Domain.toXml_valid wf g names (hi.good d hd) (hi.rules d hd) ?_ ?_ hk hs hx
  · intro p hp
    obtain ⟨e, he⟩ := (hi.good d hd).at_ p hp
    exact C31_path_round_trip env.root g hne he
  · have := nonempty_names_nodup (name := Config.name) (hi.good d hd).ids
      (fun a ha b hb hab hne => C20_configuration_names_partial wf h hd ha hb hab hne)
    rwa [List.filter_eq_self.2] at this
    intro x hx
    obtain ⟨c, hc, rfl⟩ := List.mem_map.1 hx
    simpa using (hk.configNames c hc).ne

/-! ## C88: what is exported is valid -/

/-- C88 (all domains): after any history, the document that is exported for all the domains is one the shipped schemas accept,
with and without settings.

Missing for the full claim: the system must have a domain, every domain a configuration; the names must be names of the schemas;
the elements of a domain must be parameters, blocks or components, not whole subsystems; and floating-point numbers must not be
minus zero, nor, raw and hexadecimal, small.  Each of these is needed: see the examples below. -/
theorem C88_valid_partial {env : Env} (wf : env.root.WF) (g : env.root.GoodNames)
    (names : ∀ q f, env.root.at? q = some f → NMToken f.name) (root : NCName env.root.name) {cs : List Criterion} {st : St}
    (h : Reachable env cs st) (hne : st.domains ≠ []) (hk : ∀ d ∈ st.domains, DomainKnown env.root st.criteria d) (ctx : Ctx)
    (ws : Bool) (hs : ws = true → ∀ d ∈ st.domains, SettingsKnown env.root ctx d) {doc : Xml}
    (hx : st.exportDomains env.root ctx ws = .ok doc) : DomainsDocument doc := by
  obtain ⟨xs, h1, h2⟩ := Out.of_bind_ok hx
  simp only [Out.ok.injEq] at h2
  subst h2
  obtain ⟨h3, h4⟩ := domainsToXml_valid (fun d hd x hx => h.domain_valid wf g names hd (hk d hd) (fun e => hs e d hd) hx) h1
  refine ⟨rfl, ⟨by simp [Xml.attrs], by simp [Xml.attrs]⟩, ⟨env.root.name, by simp [Xml.attr, Xml.attrs], root⟩, rfl, ?_, h3, ?_⟩
  · intro e
    have : xs = [] := e
    subst this
    exact hne (by simpa using h4)
  · have e1 : (xs.filterMap fun x => x.attr (s "Name")) = st.domains.map Domain.name := by
      have : (xs.map fun x => x.attr (s "Name")).filterMap id = (st.domains.map fun d => some d.name).filterMap id := by rw [h4]
      simpa [List.filterMap_map, Function.comp_def] using this
    show (xs.filterMap fun x => x.attr (s "Name")).Nodup
    rw [e1]
    have := nonempty_names_nodup (name := Domain.name) (h.inv wf).ids
      (fun a ha b hb hab hne => C20_domain_names_partial wf h ha hb hab hne)
    rwa [List.filter_eq_self.2] at this
    intro x hx
    obtain ⟨d, hd, rfl⟩ := List.mem_map.1 hx
    simpa using (hk d hd).name.ne

/-- C88 (one domain): the same for the document of a single domain. -/
theorem C88_valid_one_partial {env : Env} (wf : env.root.WF) (g : env.root.GoodNames)
    (names : ∀ q f, env.root.at? q = some f → NMToken f.name) {cs : List Criterion} {st : St} (h : Reachable env cs st)
    (hk : ∀ d ∈ st.domains, DomainKnown env.root st.criteria d) (ctx : Ctx) (ws : Bool)
    (hs : ws = true → ∀ d ∈ st.domains, SettingsKnown env.root ctx d) {name : Str} {doc : Xml}
    (hx : st.exportDomain env.root ctx ws name = .ok doc) : DomainElement doc ∧ doc.attr (s "Name") = some name := by
  unfold St.exportDomain at hx
  cases hf : st.findDomain name with
  | none => rw [hf] at hx; simp at hx
  | some d =>
    rw [hf] at hx
    obtain ⟨hd, hp⟩ := St.findDomain_mem hf
    obtain ⟨h1, h2⟩ := h.domain_valid wf g names hd (hk d hd) (fun e => hs e d hd) hx
    refine ⟨h1, ?_⟩
    rw [h2, ← hp]
    simp [Domain.pathName, (hk d hd).name.ne]

/-! ## C88: what is valid stops nothing -/

theorem Spec.RuleElement.shape {x : Xml} (h : RuleElement x) : RuleShape x := by
  induction h with
  | compound h1 _ _ _ _ ih => exact .compound h1 ih
  | crit h1 => exact .crit h1

theorem Spec.XsBoolean.read {t : Str} (h : XsBoolean t) : ∃ b, convertBool t = some b := by
  rcases h with rfl | rfl | rfl | rfl
  · exact ⟨true, by decide⟩
  · exact ⟨false, by decide⟩
  · exact ⟨true, by decide⟩
  · exact ⟨false, by decide⟩

/-- C88: an element that the schemas accept as a domain has the shape the readers need. -/
theorem C88_shape {x : Xml} (h : DomainElement x) : DomainShape x := by
  obtain ⟨confs, els, sets, h1, h2, _, h3, _, h4, _, _, h5⟩ := h.parts
  refine ⟨h.tag, ⟨confs, by simp [h1], h2.1⟩, ?_, ⟨els, by simp [h1], h4.1⟩, fun t ht => (h.aware t ht).read⟩
  intro y hy ht z hz
  have e : y = confs := by
    rw [h1] at hy
    rcases List.mem_cons.1 hy with rfl | hy
    · rfl
    · rcases List.mem_cons.1 hy with rfl | hy
      · rw [h4.1] at ht; exact absurd ht (by decide)
      · rcases h5 with rfl | ⟨set, rfl, h6, _⟩
        · simp at hy
        · obtain rfl : y = set := by simpa using hy
          rw [h6.1] at ht; exact absurd ht (by decide)
  subst e
  have hc := h3 z hz
  refine ⟨hc.tag, ?_⟩
  rcases hc.rule with h | ⟨r, h6, h7, h8⟩
  · exact .inl h
  · exact .inr ⟨r, h6, h7, h8.shape⟩

theorem nameAttr_of {x : Xml} {t : Str} (h : x.attr (s "Name") = some t) : x.nameAttr = t := by
  simp [Xml.nameAttr, Xml.attrText, h]

theorem namesDistinct_of {xs : List Xml} (h : ∀ x ∈ xs, ∃ t, x.attr (s "Name") = some t)
    (hn : (xs.map fun y => y.attr (s "Name")).Nodup) : Xml.NamesDistinct xs := by
  refine List.Nodup.filter _ ?_
  have e : (xs.map Xml.nameAttr).map some = xs.map fun y => y.attr (s "Name") := by
    rw [List.map_map]
    refine List.map_congr_left fun x hx => ?_
    obtain ⟨t, ht⟩ := h x hx
    simp [nameAttr_of ht, ht]
  rw [← e] at hn
  exact List.Nodup.of_map _ hn

/-- C88: the configurations of an element that the schemas accept as a domain have distinct names. -/
theorem C88_configurations {x : Xml} (h : DomainElement x) : x.ConfigNamesDistinct := by
  obtain ⟨confs, els, sets, h1, h2, _, h3, h4, _⟩ := h.parts
  intro y hy
  have e : x.childOrLast (s "Configurations") = some confs := by
    simp [Xml.childOrLast, Xml.child?, h1, h2.1]
  rw [e] at hy
  obtain rfl : confs = y := by simpa using hy
  refine namesDistinct_of (fun z hz => ?_) h4
  obtain ⟨t, ht, _⟩ := (h3 z hz).name
  exact ⟨t, ht⟩

/-- C88: an import of a document that the schemas accept is one of the operations whose histories the other properties are
about. -/
theorem C88_regular {doc : Xml} (h : DomainsDocument doc) (root : Elem) (ws : Bool) : (DomOp.importDomains ws doc).Regular root := by
  refine ⟨?_, fun x hx => C88_configurations (h.domains x hx)⟩
  refine namesDistinct_of (fun z hz => ?_) ?_
  · obtain ⟨t, ht, _⟩ := (h.domains z hz).name
    exact ⟨t, ht⟩
  · have hu : (doc.children.filterMap fun x => x.attr (s "Name")).Nodup := h.unique
    have := attrs_some (n := s "Name") (zs := doc.children) fun z hz => by
      obtain ⟨t, ht, _⟩ := (h.domains z hz).name
      exact ⟨t, ht⟩
    rw [this]
    exact List.Nodup.map (fun a b => by simp) hu

/-- C88: after any history, the import of a document that the schemas accept is answered: the program does not stop.  The same
for a start with such settings. -/
theorem C88_no_stop {env : Env} (wf : env.root.WF) {cs : List Criterion} {st : St} (h : Reachable env cs st)
    (overwrite ws : Bool) (doc : Xml) :
    (DomainsDocument doc → ((DomOp.importDomains ws doc).step env st).1 ≠ .abort) ∧
    (DomainElement doc → ((DomOp.importDomain overwrite ws doc).step env st).1 ≠ .abort) ∧
    (DomainsDocument doc → ∀ (fail : Bool) (back : BackSync), (St.start env fail (.doc doc) back cs).1 ≠ .abort) := by
  have h1 := C64_no_stop wf h overwrite ws doc
  refine ⟨fun hd => h1.1 fun x hx => C88_shape (hd.domains x hx), fun hd => h1.2 (C88_shape hd), fun hd fail back => ?_⟩
  refine C66_no_stop wf fail _ back cs fun x e y hy => ?_
  obtain rfl : doc = x := by simpa using e
  exact C88_shape (hd.domains y hy)

/-! ## The hypotheses can be met -/

namespace Sample

theorem tokens {q : Pos} {f : Elem} (h : root.at? q = some f) : NMToken f.name := by
  have key : ∀ q ∈ positions, ∀ n, (root.at? q).map Elem.name = some n → n ≠ [] ∧ ∀ c ∈ n, nameChar c = true ∨ c = ':' := by
    intro q hq n hn
    have : ((root.at? q).map Elem.name).all (fun n => !n.isEmpty && n.all fun c => nameChar c || c == ':') = true :=
      (by decide +kernel : ∀ q ∈ positions,
        ((root.at? q).map Elem.name).all (fun n => !n.isEmpty && n.all fun c => nameChar c || c == ':') = true) q hq
    rw [hn] at this
    simpa using this
  exact key q (mem_positions h) f.name (by rw [h]; rfl)

theorem presentable {ctx : Ctx} {b : Board} {o : Nat} {q : Pos} {f : Elem} (h : root.at? q = some f) :
    f.kind.Presentable ctx b o := by
  have := mem_positions h
  simp only [positions, List.mem_cons, List.not_mem_nil, or_false] at this
  rcases this with rfl | rfl | rfl | rfl | rfl | rfl | rfl | rfl | rfl | rfl <;>
    simp [root, component, block, Elem.at?] at h <;> subst h <;> trivial

theorem ncName {t : Str} (h : (match t with | [] => false | c :: cs => nameStart c && cs.all nameChar) = true) : NCName t := by
  cases t with
  | nil => simp at h
  | cons c cs =>
    simp only [Bool.and_eq_true, List.all_eq_true] at h
    exact ⟨c, cs, rfl, h.1, h.2⟩

theorem critNames {i : Nat} {c : Criterion} (h : criteria[i]? = some c) : NMToken c.name := by
  have : c ∈ criteria := List.mem_of_getElem? h
  exact ((by decide +kernel : ∀ c ∈ criteria, c.name ≠ [] ∧ ∀ d ∈ c.name, nameChar d = true ∨ d = ':') c this)

theorem domains_known {d : Domain} (hd : d ∈ st.domains) : DomainKnown root st.criteria d := by
  have hd : d = domV ∨ d = domQ := by simpa [st] using hd
  rcases hd with rfl | rfl
  · refine ⟨ncName (by decide +kernel), by simp [domV], ?_, ?_, ?_⟩
    · intro c hc
      have : c = loud ∨ c = calm := by simpa [domV] using hc
      rcases this with rfl | rfl <;> exact ncName (by decide +kernel)
    · intro c hc r hr
      have : c = loud ∨ c = calm := by simpa [domV] using hc
      rcases this with rfl | rfl
      · obtain rfl : Rule.compound true [.crit 1 .is 0#32] = r := by simpa [loud] using hr
        refine .compound fun x hx => ?_
        obtain rfl : x = .crit 1 .is 0#32 := by simpa using hx
        exact .crit fun c hc => critNames hc
      · obtain rfl : Rule.compound false [.crit 0 .includes 4#32] = r := by simpa [calm] using hr
        refine .compound fun x hx => ?_
        obtain rfl : x = .crit 0 .includes 4#32 := by simpa using hx
        exact .crit fun c hc => critNames hc
    · intro p hp
      obtain rfl : p = [0, 0, 0] := by simpa [domV] using hp
      exact ⟨_, rfl, .scalar⟩
  · refine ⟨ncName (by decide +kernel), by simp [domQ], ?_, ?_, ?_⟩
    · intro c hc
      have : c = on ∨ c = off := by simpa [domQ] using hc
      rcases this with rfl | rfl <;> exact ncName (by decide +kernel)
    · intro c hc r hr
      have : c = on ∨ c = off := by simpa [domQ] using hc
      rcases this with rfl | rfl
      · obtain rfl : Rule.compound true [] = r := by simpa [on] using hr
        exact .compound (by simp)
      · simp [off] at hr
    · intro p hp
      have : p = [0, 0, 1] ∨ p = [0, 1] := by simpa [domQ] using hp
      rcases this with rfl | rfl
      · exact ⟨_, rfl, .bitBlock (by simp)⟩
      · exact ⟨_, rfl, .scalar⟩

theorem settings_known {d : Domain} (ctx : Ctx) : SettingsKnown root ctx d := by
  intro c hc a ha e he q f o hf ho
  exact presentable (Elem.at_append he hf)

/-- The two sample domains are exported, with their settings, as the schemas want it, and can be read. -/
example : ∃ doc, st.exportDomains root ctx true = .ok doc ∧ doc.children.length = 2 ∧ DomainsDocument doc ∧
    ((DomOp.importDomains true doc).step env st).1 ≠ .abort := by
  have : ∃ doc, st.exportDomains root ctx true = .ok doc := by
    have : (match st.exportDomains root ctx true with | .ok _ => true | _ => false) = true := by decide +kernel
    cases h : st.exportDomains root ctx true with
    | ok doc => exact ⟨doc, rfl⟩
    | err => rw [h] at this; simp at this
    | abort => rw [h] at this; simp at this
  obtain ⟨doc, h⟩ := this
  have hv := C88_valid_partial (env := env) wf goodNames (fun _ _ => tokens) (ncName (by decide +kernel)) reachable (by decide)
    (fun d hd => domains_known hd) ctx true (fun _ _ _ => settings_known _) h
  refine ⟨doc, h, ?_, hv, (C88_no_stop wf reachable true true doc).1 hv⟩
  have : (match st.exportDomains root ctx true with | .ok x => x.children.length | _ => 0) = 2 := by decide +kernel
  rw [h] at this
  exact this

/-! ## The conditions are needed -/

/-- The first domain of the document has a configuration. -/
def firstHasConfig (doc : Xml) : Bool :=
  match doc.children with
  | x :: _ => match x.children with | c :: _ => !c.children.isEmpty | [] => false
  | [] => false

theorem firstHasConfig_of {doc : Xml} (h : DomainsDocument doc) : firstHasConfig doc = true := by
  unfold firstHasConfig
  cases hc : doc.children with
  | nil => exact absurd hc h.some
  | cons x xs =>
    obtain ⟨confs, els, sets, h1, _, h2, _⟩ := (h.domains x (by simp [hc])).parts
    simp [h1, h2]

/-- The tags of the elements that hold the settings of the elements of the domain. -/
def settingTags (x : Xml) : List Str :=
  match x.children with
  | [_, _, set] => set.children.flatMap fun c => c.children.flatMap fun e => e.children.map Xml.tag
  | _ => []

theorem settingTags_of {x : Xml} (h : DomainElement x) : ∀ t ∈ settingTags x, t ≠ s "Subsystem" := by
  obtain ⟨confs, els, sets, h1, _, _, _, _, _, _, _, h2⟩ := h.parts
  rcases h2 with rfl | ⟨set, rfl, _, h2⟩
  · simp [settingTags, h1]
  · intro t ht
    simp only [settingTags, h1, List.mem_flatMap, List.mem_map] at ht
    obtain ⟨c, hc, e, he, y, hy, rfl⟩ := ht
    obtain ⟨z, hz, hk⟩ := ((h2 c hc).1.children e he).child
    rw [hz] at hy
    obtain rfl : y = z := by simpa using hy
    rcases hk with hb | hp
    · have := SimpleElement.tag hb
      rw [this]; decide
    · cases hp with
      | bool h => rw [h.tag]; decide
      | int h => rw [h.tag]; decide
      | enum h => rw [h.tag]; decide
      | fixed h => rw [h.tag]; decide
      | float h => rw [h.tag]; decide
      | bits h => rw [h]; decide
      | string h => rw [h.tag]; decide
      | component h => rw [h]; decide
      | block h => rw [h]; decide

/-- Finding: a system without domains is exported as a document that the schemas refuse. -/
example : ∃ doc, (St.initial root criteria).exportDomains root ctx true = .ok doc ∧ ¬ DomainsDocument doc :=
  ⟨_, rfl, fun h => h.some rfl⟩

/-- Finding: so is a domain that has no configuration, as each has when it was made. -/
example : Reachable env criteria (run env [.createDomain (s "V")] (St.initial root criteria)) ∧
    ∃ doc, (run env [.createDomain (s "V")] (St.initial root criteria)).exportDomains root ctx true = .ok doc ∧
      ¬ DomainsDocument doc := by
  refine ⟨run_reachable .start (by decide +kernel), ?_⟩
  cases h : (run env [.createDomain (s "V")] (St.initial root criteria)).exportDomains root ctx true with
  | ok doc =>
    refine ⟨doc, rfl, fun hd => ?_⟩
    have h1 := firstHasConfig_of hd
    have h2 : (match (run env [.createDomain (s "V")] (St.initial root criteria)).exportDomains root ctx true with
      | .ok doc => firstHasConfig doc | _ => true) = false := by decide +kernel
    rw [h] at h2
    exact absurd (h1.symm.trans h2) (by simp)
  | err =>
    have h2 : (match (run env [.createDomain (s "V")] (St.initial root criteria)).exportDomains root ctx true with
      | .ok _ => true | _ => false) = true := by decide +kernel
    rw [h] at h2; simp at h2
  | abort =>
    have h2 : (match (run env [.createDomain (s "V")] (St.initial root criteria)).exportDomains root ctx true with
      | .ok _ => true | _ => false) = true := by decide +kernel
    rw [h] at h2; simp at h2

/-- Operations that give a domain a whole subsystem. -/
def wholeOps : List DomOp := [.createDomain (s "V"), .addElement (s "V") (s "/Sys/sub"), .createConfiguration (s "V") (s "C")]

/-- Finding: a domain may hold a whole subsystem, whose settings are exported in an element the schemas do not know. -/
example : Reachable env criteria (run env wholeOps (St.initial root criteria)) ∧
    ∃ doc, (run env wholeOps (St.initial root criteria)).exportDomain root ctx true (s "V") = .ok doc ∧
      ¬ DomainElement doc := by
  refine ⟨run_reachable .start (by decide +kernel), ?_⟩
  have h2 : (match (run env wholeOps (St.initial root criteria)).exportDomain root ctx true (s "V") with
    | .ok doc => settingTags doc | _ => []) = [s "Subsystem"] := by decide +kernel
  cases h : (run env wholeOps (St.initial root criteria)).exportDomain root ctx true (s "V") with
  | ok doc =>
    refine ⟨doc, rfl, fun hd => ?_⟩
    rw [h] at h2
    exact settingTags_of hd (s "Subsystem") (by simp only at h2; rw [h2]; simp) rfl
  | err => rw [h] at h2; simp at h2
  | abort => rw [h] at h2; simp at h2

theorem not_point {t : Str} (h1 : (Rx.spacedList Rx.point).accepts t = false) (h2 : (Rx.spacedList Rx.hexadecimal).accepts t = false) :
    ¬ PointContent t := by
  rintro (h | h)
  · exact Rx.not_matches h1 h
  · exact Rx.not_matches h2 h

/-- A floating-point parameter between -1 and 1. -/
def gain : FloatType := ⟨0xBF800000#32, 0x3F800000#32⟩

/-- Finding: minus zero is a value of a floating-point parameter, shown as `-0`, which the schemas refuse.  Zero
itself is refused when it is shown raw and hexadecimal, as `00000000`, and so are the other patterns below 2^20, as their padding
is put before the `0x`. -/
example : gain.inRange 0x80000000#32 = true ∧ gain.toText ⟨false, false⟩ 0x80000000#32 = s "-0" ∧
    ¬ PointContent (gain.toText ⟨false, false⟩ 0x80000000#32) ∧
    gain.toText ⟨true, true⟩ 0#32 = s "00000000" ∧ ¬ PointContent (gain.toText ⟨true, true⟩ 0#32) ∧
    gain.toText ⟨true, true⟩ 0xFFFFF#32 = s "00xfffff" ∧ ¬ PointContent (gain.toText ⟨true, true⟩ 0xFFFFF#32) := by
  have e1 : gain.toText ⟨false, false⟩ 0x80000000#32 = s "-0" := by decide +kernel
  have e2 : gain.toText ⟨true, true⟩ 0#32 = s "00000000" := by decide +kernel
  have e3 : gain.toText ⟨true, true⟩ 0xFFFFF#32 = s "00xfffff" := by decide +kernel
  rw [e1, e2, e3]
  exact ⟨by decide +kernel, rfl, not_point (by decide +kernel) (by decide +kernel), rfl,
    not_point (by decide +kernel) (by decide +kernel), rfl, not_point (by decide +kernel) (by decide +kernel)⟩

/-- Numbers the schemas accept. -/
example : FloatShown ⟨false, false⟩ 0x3F800000#32 ∧ FloatShown ⟨true, true⟩ 0x3F800000#32 ∧ FloatShown ⟨false, false⟩ 0#32 := by
  refine ⟨⟨fun _ => by decide +kernel, by simp⟩, ⟨by simp, fun _ _ => by decide⟩, ⟨fun _ => by decide +kernel, by simp⟩⟩

end Sample

end PF
