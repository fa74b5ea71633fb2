import Verif.Lemmas.SyncExact

/-! # Names of domains and configurations through histories -/

namespace PF

/-- Addresses and names of the configurations of a domain. -/
def Domain.names (d : Domain) : List (Nat × Str) := d.configs.map fun c => (c.id, c.name)

/-- Addresses and names of all. -/
def St.names (st : St) : List (Nat × Str × List (Nat × Str)) := st.domains.map fun d => (d.id, d.name, d.names)

/-- Non-empty names designate one object. -/
structure NamesOK (l : List (Nat × Str × List (Nat × Str))) : Prop where
  domains : ∀ x ∈ l, ∀ y ∈ l, x.2.1 = y.2.1 → x.2.1 ≠ [] → x.1 = y.1
  configs : ∀ x ∈ l, ∀ a ∈ x.2.2, ∀ b ∈ x.2.2, a.2 = b.2 → a.2 ≠ [] → a.1 = b.1

theorem St.names_set {root : Elem} {st : St} (h : st.Inv root) {d d' : Domain} (hd : d ∈ st.domains) (h1 : d'.id = d.id)
    (h2 : d'.name = d.name) (h3 : d'.names = d.names) : (st.setDomain d').names = st.names := by
  unfold St.names
  simp only [St.setDomain, List.map_map]
  apply List.map_congr_left
  intro x hx
  show ((if x.id = d'.id then d' else x).id, (if x.id = d'.id then d' else x).name, (if x.id = d'.id then d' else x).names) = _
  split
  · rename_i hxi
    have := nodup_map_inj h.ids hx hd (hxi.trans h1)
    subst this
    rw [h1, h2, h3]
  · rfl

theorem Domain.names_map {d d' : Domain} {g : Config → Config} (h : d'.configs = d.configs.map g)
    (hg : ∀ c ∈ d.configs, c.Same (g c)) : d'.names = d.names := by
  unfold Domain.names
  rw [h, List.map_map]
  apply List.map_congr_left
  intro c hc
  show ((g c).id, (g c).name) = _
  rw [(hg c hc).1, (hg c hc).2.1]

theorem Domain.names_setConfig {d : Domain} (hn : (d.configs.map Config.id).Nodup) {c c' : Config} (hc : c ∈ d.configs)
    (h1 : c'.id = c.id) (h2 : c'.name = c.name) : (d.setConfig c').names = d.names := by
  unfold Domain.names
  simp only [Domain.setConfig, List.map_map]
  apply List.map_congr_left
  intro x hx
  show ((if x.id = c'.id then c' else x).id, (if x.id = c'.id then c' else x).name) = _
  split
  · rename_i hxi
    have := nodup_map_inj hn hx hc (hxi.trans h1)
    subst this
    rw [h1, h2]
  · rfl

theorem pathName_of_ne {d : Domain} (h : d.name ≠ []) : d.pathName = d.name := by simp [Domain.pathName, h]
theorem Config.pathName_of_ne {c : Config} (h : c.name ≠ []) : c.pathName = c.name := by simp [Config.pathName, h]

theorem St.onConfig_names {root : Elem} {st : St} (h : st.Inv root) (dom name : Str) (f : Config → Out Unit × Config)
    (hf : ∀ c, (f c).2.id = c.id ∧ (f c).2.name = c.name) : (st.onConfig dom name f).2.names = st.names := by
  unfold St.onConfig
  split
  · rfl
  · rename_i d hd
    have hdm := (St.findDomain_mem hd).1
    split
    · rfl
    · rename_i c hc
      exact St.names_set h hdm rfl rfl
        (Domain.names_setConfig (h.good d hdm).ids (Domain.findConfig_mem hc).1 (hf c).1 (hf c).2)

theorem St.onDomain_names {root : Elem} {st : St} (h : st.Inv root) (name : Str) (f : Domain → Out (Domain × Attached))
    (hf : ∀ d ∈ st.domains, ∀ d' att, f d = .ok (d', att) → d'.id = d.id ∧ d'.name = d.name ∧ d'.names = d.names) :
    (st.onDomain name f).2.names = st.names := by
  unfold St.onDomain
  split
  · rfl
  · rename_i d hd
    have hdm := (St.findDomain_mem hd).1
    split
    · rename_i d' att hk
      obtain ⟨h1, h2, h3⟩ := hf d hdm d' att hk
      exact St.names_set h hdm h1 h2 h3
    · rfl
    · rfl

/-- Replacing the configuration names of one domain. -/
theorem NamesOK.set {st : St} (h : NamesOK st.names) {d d' : Domain} (hd : d ∈ st.domains) (h1 : d'.id = d.id)
    (h2 : d'.name = d.name ∨ ∀ x ∈ st.domains, x.id ≠ d.id → x.name ≠ d'.name)
    (h3 : ∀ a ∈ d'.names, ∀ b ∈ d'.names, a.2 = b.2 → a.2 ≠ [] → a.1 = b.1) : NamesOK (st.setDomain d').names := by
  have key : ∀ x ∈ (st.setDomain d').names, x = (d'.id, d'.name, d'.names) ∨
      ∃ y ∈ st.domains, y.id ≠ d.id ∧ x = (y.id, y.name, y.names) := by
    intro x hx
    obtain ⟨y, hy, rfl⟩ := List.mem_map.1 hx
    rcases (St.mem_setDomain hd h1).1 hy with rfl | ⟨hy, hne⟩
    · exact .inl rfl
    · exact .inr ⟨y, hy, hne, rfl⟩
  have old : ∀ y ∈ st.domains, (y.id, y.name, y.names) ∈ st.names := fun y hy => List.mem_map.2 ⟨y, hy, rfl⟩
  refine ⟨?_, ?_⟩
  · intro x hx y hy hxy hne
    rcases key x hx with rfl | ⟨u, hu, hui, rfl⟩ <;> rcases key y hy with rfl | ⟨v, hv, hvi, rfl⟩
    · rfl
    · rcases h2 with h2 | h2
      · rw [show (d'.id, d'.name, d'.names).1 = d.id from h1]
        exact h.domains _ (old d hd) _ (old v hv) (by rw [← h2]; exact hxy) (by show d.name ≠ []; rw [← h2]; exact hne)
      · exact absurd hxy.symm (h2 v hv hvi)
    · rcases h2 with h2 | h2
      · rw [show (d'.id, d'.name, d'.names).1 = d.id from h1]
        exact h.domains _ (old u hu) _ (old d hd) (by rw [← h2]; exact hxy) hne
      · exact absurd hxy (h2 u hu hui)
    · exact h.domains _ (old u hu) _ (old v hv) hxy hne
  · intro x hx
    rcases key x hx with rfl | ⟨u, hu, hui, rfl⟩
    · exact h3
    · exact h.configs _ (old u hu)

theorem distinct_inj {α : Type} {l : List α} {f : α → Str} (h : ((l.map f).filter (· ≠ [])).Nodup) {a b : α} (ha : a ∈ l)
    (hb : b ∈ l) (hab : f a = f b) (hne : f a ≠ []) : a = b := by
  obtain ⟨i, hi, rfl⟩ := List.getElem_of_mem ha
  obtain ⟨j, hj, rfl⟩ := List.getElem_of_mem hb
  unfold List.Nodup at h
  rw [List.pairwise_filter, List.pairwise_iff_getElem] at h
  have key := fun i j hi hj hij => h i j (by simpa using hi) (by simpa using hj) hij
  simp only [List.getElem_map, ne_eq, decide_eq_true_eq] at key
  rcases Nat.lt_trichotomy i j with hij | hij | hij
  · exact absurd hab (key i j hi hj hij hne (hab ▸ hne))
  · subst hij; rfl
  · exact absurd hab.symm (key j i hj hi hij (hab ▸ hne) hne)

theorem Domain.fromXml_names {root : Elem} (wf : root.WF) {rd : Reader} {cs : List Criterion} {withSettings : Bool}
    {n : Nat} {att : Attached} (hatt : ∀ p, (p, n) ∉ att) {aware : Bool} {x : Xml} {d : Domain} {att' : Attached} {m : Nat}
    (h : Domain.fromXml root rd cs withSettings n att aware x = .ok (d, att', m)) (hx : x.ConfigNamesDistinct) :
    ∀ a ∈ d.names, ∀ b ∈ d.names, a.2 = b.2 → a.2 ≠ [] → a.1 = b.1 := by
  obtain ⟨_, _, _, _, _, _, _, _, _, confs, h1, h2⟩ := Domain.fromXml_head wf hatt h
  have h3 := hx confs h1
  unfold Xml.NamesDistinct at h3
  rw [← h2] at h3
  intro a ha b hb hab hne
  obtain ⟨u, hu, rfl⟩ := List.mem_map.1 ha
  obtain ⟨v, hv, rfl⟩ := List.mem_map.1 hb
  rw [distinct_inj h3 hu hv hab hne]

theorem NamesOK.step {env : Env} (wf : env.root.WF) {st : St} (h : st.Inv env.root) (hn : NamesOK st.names) (op : DomOp)
    (hreg : op.Regular env.root) :
    NamesOK (op.step env st).2.names := by
  have old : ∀ y ∈ st.domains, (y.id, y.name, y.names) ∈ st.names := fun y hy => List.mem_map.2 ⟨y, hy, rfl⟩
  have same : ∀ {st' : St}, st'.names = st.names → NamesOK st'.names := fun he => he ▸ hn
  cases op with
  | createDomain name =>
    simp only [DomOp.step, St.createDomain]
    split
    · exact hn
    · rename_i hf
      have hno : ∀ y ∈ st.domains, y.name = name → name ≠ [] → False := by
        intro y hy hyn hne
        have := List.find?_eq_none.1 hf y hy
        rw [pathName_of_ne (by rw [hyn]; exact hne), hyn] at this
        simp at this
      have hnames : St.names { st with domains := st.domains ++ [Domain.new st.nextId name], nextId := st.nextId + 1 } =
          st.names ++ [(st.nextId, name, [])] := by simp [St.names, Domain.new, Domain.names]
      rw [hnames]
      refine ⟨?_, ?_⟩
      · intro x hx y hy hxy hne
        rcases List.mem_append.1 hx with hx | hx <;> rcases List.mem_append.1 hy with hy | hy
        · exact hn.domains x hx y hy hxy hne
        · simp only [List.mem_cons, List.not_mem_nil, or_false] at hy; subst hy
          obtain ⟨u, hu, rfl⟩ := List.mem_map.1 hx
          have hxy' : u.name = name := hxy
          exact (hno u hu hxy' (hxy' ▸ hne)).elim
        · simp only [List.mem_cons, List.not_mem_nil, or_false] at hx; subst hx
          obtain ⟨u, hu, rfl⟩ := List.mem_map.1 hy
          exact (hno u hu hxy.symm hne).elim
        · simp only [List.mem_cons, List.not_mem_nil, or_false] at hx hy; rw [hx, hy]
      · intro x hx
        rcases List.mem_append.1 hx with hx | hx
        · exact hn.configs x hx
        · simp only [List.mem_cons, List.not_mem_nil, or_false] at hx; subst hx; intro a ha; simp at ha
  | deleteDomain name =>
    simp only [DomOp.step, St.deleteDomain]
    split
    · exact hn
    · rename_i d _
      have hsub : ∀ x ∈ St.names { st with domains := st.domains.filter (·.id ≠ d.id), attached := st.attached.filter (fun x => !(x.2 == d.id && d.elems.contains x.1)) },
          x ∈ st.names := by
        intro x hx
        obtain ⟨y, hy, rfl⟩ := List.mem_map.1 hx
        exact old y (List.mem_filter.1 hy).1
      exact ⟨fun x hx y hy => hn.domains x (hsub x hx) y (hsub y hy), fun x hx => hn.configs x (hsub x hx)⟩
  | deleteAllDomains => exact ⟨fun x hx => by simp [DomOp.step, St.deleteAllDomains, St.names] at hx, fun x hx => by simp [DomOp.step, St.deleteAllDomains, St.names] at hx⟩
  | renameDomain name new =>
    simp only [DomOp.step, St.renameDomain]
    split
    · exact hn
    · rename_i d hd
      split
      · exact hn
      · rename_i hany
        have hdm := (St.findDomain_mem hd).1
        refine hn.set (d' := { d with name := new }) hdm rfl (.inr ?_) (hn.configs _ (old d hdm))
        intro x hx hxi hxn
        apply hany
        rw [List.any_eq_true]
        exact ⟨x, hx, by simp [hxi, hxn]⟩
  | setSequenceAwareness name aware =>
    refine same (St.onDomain_names h name _ ?_)
    intro d hd d' att hk
    simp only [Out.ok.injEq, Prod.mk.injEq] at hk
    obtain ⟨rfl, rfl⟩ := hk
    exact ⟨rfl, rfl, rfl⟩
  | createConfiguration dom name =>
    simp only [DomOp.step, St.createConfiguration]
    split
    · exact hn
    · rename_i d hd
      have hdm := (St.findDomain_mem hd).1
      split
      · rename_i d' hk
        have hfind : d.findConfig name = none := by
          unfold Domain.createConfig at hk
          split at hk
          · simp at hk
          · assumption
        obtain ⟨c, h1, _, h3, h4, _⟩ := Domain.createConfig_spec wf (h.good d hdm) h.main (id := st.nextId) (by
          intro hm
          obtain ⟨c, hc, he⟩ := List.mem_map.1 hm
          have := (h.fresh d hdm).2 c hc
          omega) hfind
        rw [h1] at hk
        simp only [Out.ok.injEq] at hk
        subst hk
        have hno : ∀ y ∈ d.configs, y.name = name → name ≠ [] → False := by
          intro y hy hyn hne
          have := List.find?_eq_none.1 hfind y hy
          rw [Config.pathName_of_ne (by rw [hyn]; exact hne), hyn] at this
          simp at this
        show NamesOK (st.setDomain { d with configs := d.configs ++ [c] }).names
        refine hn.set (d' := { d with configs := d.configs ++ [c] }) hdm rfl (.inl rfl) ?_
        intro a ha b hb hab hne
        obtain ⟨u, hu, rfl⟩ := List.mem_map.1 ha
        obtain ⟨v, hv, rfl⟩ := List.mem_map.1 hb
        have hab' : u.name = v.name := hab
        rcases List.mem_append.1 hu with hu' | hu <;> rcases List.mem_append.1 hv with hv' | hv
        · exact hn.configs _ (old d hdm) (u.id, u.name) (List.mem_map.2 ⟨u, hu', rfl⟩) (v.id, v.name)
            (List.mem_map.2 ⟨v, hv', rfl⟩) hab hne
        · simp only [List.mem_cons, List.not_mem_nil, or_false] at hv; subst hv
          rw [h4] at hab'
          exact (hno u hu' hab' (hab' ▸ hne)).elim
        · simp only [List.mem_cons, List.not_mem_nil, or_false] at hu; subst hu
          rw [h4] at hab'
          exact (hno v hv' hab'.symm (by rw [← h4]; exact hne)).elim
        · simp only [List.mem_cons, List.not_mem_nil, or_false] at hu hv; rw [hu, hv]
      · exact hn
      · exact hn
  | deleteConfiguration dom name =>
    simp only [DomOp.step, St.deleteConfiguration, St.onDomain]
    split
    · exact hn
    · rename_i d hd
      have hdm := (St.findDomain_mem hd).1
      cases hc : d.deleteConfig name with
      | err => simp only [Out.bind]; exact hn
      | abort => simp only [Out.bind]; exact hn
      | ok d1 =>
        simp only [Out.bind]
        show NamesOK (st.setDomain d1).names
        unfold Domain.deleteConfig at hc
        split at hc
        · simp at hc
        · simp only [Out.ok.injEq] at hc
          subst hc
          refine hn.set hdm rfl (.inl rfl) ?_
          intro a ha b hb
          obtain ⟨u, hu, rfl⟩ := List.mem_map.1 ha
          obtain ⟨v, hv, rfl⟩ := List.mem_map.1 hb
          exact hn.configs _ (old d hdm) (u.id, u.name) (List.mem_map.2 ⟨u, (List.mem_filter.1 hu).1, rfl⟩) (v.id, v.name)
            (List.mem_map.2 ⟨v, (List.mem_filter.1 hv).1, rfl⟩)
  | renameConfiguration dom name new =>
    simp only [DomOp.step, St.renameConfiguration, St.onDomain]
    split
    · exact hn
    · rename_i d hd
      have hdm := (St.findDomain_mem hd).1
      cases hc : d.renameConfig name new with
      | err => simp only [Out.bind]; exact hn
      | abort => simp only [Out.bind]; exact hn
      | ok d1 =>
        simp only [Out.bind]
        show NamesOK (st.setDomain d1).names
        obtain ⟨_, c, hf, rfl, hno⟩ := Domain.renameConfig_good (h.good d hdm) hc
        have hcm := (Domain.findConfig_mem hf).1
        refine hn.set (d' := d.setConfig { c with name := new }) hdm rfl (.inl rfl) ?_
        intro a ha b hb hab hne
        obtain ⟨u, hu, rfl⟩ := List.mem_map.1 ha
        obtain ⟨v, hv, rfl⟩ := List.mem_map.1 hb
        have hab' : u.name = v.name := hab
        rcases (Domain.mem_setConfig (c' := { c with name := new }) hcm rfl).1 hu with rfl | ⟨hu, hui⟩ <;>
          rcases (Domain.mem_setConfig (c' := { c with name := new }) hcm rfl).1 hv with rfl | ⟨hv, hvi⟩
        · rfl
        · exact absurd hab'.symm (hno v hv hvi)
        · exact absurd hab' (hno u hu hui)
        · exact hn.configs _ (old d hdm) (u.id, u.name) (List.mem_map.2 ⟨u, hu, rfl⟩) (v.id, v.name)
            (List.mem_map.2 ⟨v, hv, rfl⟩) hab hne
  | saveConfiguration dom name =>
    refine same (St.onDomain_names h dom _ ?_)
    intro d hd d' att hk
    cases hf : d.findConfig name with
    | none => simp [Domain.saveConfig, hf, Out.bind] at hk
    | some c =>
      obtain ⟨c', h1, _, h3, _⟩ := Domain.saveConfig_spec wf (h.good d hd) h.main hf
      rw [h1] at hk
      simp only [Out.bind, Out.ok.injEq, Prod.mk.injEq] at hk
      obtain ⟨rfl, rfl⟩ := hk
      exact ⟨rfl, rfl, Domain.names_setConfig (h.good d hd).ids (Domain.findConfig_mem hf).1 h3.1 h3.2.1⟩
  | restoreConfiguration autoSync dom name =>
    simp only [DomOp.step, St.restoreConfiguration]
    split
    · exact hn
    · rename_i d hd
      have hdm := (St.findDomain_mem hd).1
      split
      · rename_i d' m' errs hk
        obtain ⟨c, _, rfl, _⟩ := Domain.restoreConfig_good wf (h.good d hdm) env.hw autoSync h.main hk
        show NamesOK (st.setDomain { d with last := some c.id }).names
        exact same (St.names_set h hdm rfl rfl rfl)
      · exact hn
      · exact hn
  | addElement dom path =>
    simp only [DomOp.step, St.atPath]
    split
    · exact hn
    · rename_i p hp
      obtain ⟨e, he⟩ := Elem.locate_at hp
      refine same (St.onDomain_names h dom _ ?_)
      intro d hd d' att hk
      unfold Domain.addElem at hk
      split at hk
      · simp at hk
      · rename_i hp
        split at hk
        · simp at hk
        · rename_i hb
          obtain ⟨d1, att1, h1, _, _, h4, _, g, h6, h7⟩ := Domain.addElem_good wf (h.good d hd) (att := st.attached) hp
            (fun q hq hqp => hb ((h.belongs hd p).2 ⟨q, hq, hqp⟩)) he h.main
          rw [h1] at hk
          simp only [Out.ok.injEq, Prod.mk.injEq] at hk
          obtain ⟨rfl, rfl⟩ := hk
          exact ⟨h4.id, h4.name, Domain.names_map h6 (fun c hc => (h7 c hc).1)⟩
  | removeElement dom path =>
    simp only [DomOp.step, St.atPath]
    split
    · exact hn
    · rename_i p _
      refine same (St.onDomain_names h dom _ ?_)
      intro d hd d' att hk
      by_cases hp : p ∈ d.elems
      · obtain ⟨d1, h1, _, _, h4, g, h6, h7⟩ := Domain.removeElem_good (h.good d hd) (att := st.attached) hp
        rw [h1] at hk
        simp only [Out.ok.injEq, Prod.mk.injEq] at hk
        obtain ⟨rfl, rfl⟩ := hk
        exact ⟨h4.id, h4.name, Domain.names_map h6 (fun c hc => (h7 c hc).1)⟩
      · simp [Domain.removeElem, hp] at hk
  | split dom path =>
    simp only [DomOp.step, St.atPath]
    split
    · exact hn
    · rename_i p _
      unfold St.split
      split
      · exact hn
      · rename_i d hd
        have hdm := (St.findDomain_mem hd).1
        split
        · rename_i d' att hk
          have hp : p ∈ d.elems := by
            apply Classical.byContradiction
            intro hp; simp [Domain.split, hp] at hk
          have hne : env.root.childPositions p ≠ [] := by
            intro hne; simp [Domain.split, hp, hne] at hk
          obtain ⟨d1, h1, _, _, h4, g, h6, h7⟩ := Domain.split_good wf (h.good d hdm) (att := st.attached) hp hne
          rw [h1] at hk
          simp only [Out.ok.injEq, Prod.mk.injEq] at hk
          obtain ⟨rfl, rfl⟩ := hk
          show NamesOK (st.setDomain d1).names
          exact same (St.names_set h hdm h4.id h4.name (Domain.names_map h6 (fun c hc => (h7 c hc).1)))
        · exact hn
        · exact hn
  | setElementSequence dom name paths => exact same (St.onConfig_names h dom name _ fun c => ⟨rfl, rfl⟩)
  | setApplicationRule dom name text =>
    refine same (St.onConfig_names h dom name _ fun c => ?_)
    unfold Config.setRule
    split <;> exact ⟨rfl, rfl⟩
  | clearApplicationRule dom name => exact same (St.onConfig_names h dom name _ fun c => ⟨rfl, rfl⟩)
  | setConfigurationParameter ctx autoSync dom conf path text =>
    show NamesOK (St.names (st.setConfigParam env ctx autoSync dom conf path text).2)
    unfold St.setConfigParam
    split
    · exact hn
    · rename_i d c q isLast hb
      obtain ⟨_, _, hd, hc, _⟩ := St.findBlackboard_spec hb
      have hdm := (St.findDomain_mem hd).1
      split
      · rename_i a base _ _
        have key := same (St.names_set h hdm (d' := d.setConfig (Config.mk c.id c.name c.rule (setArea q
            (Area.mk a.elem (Elem.setText env.rd ctx env.root base a.board path text).2 a.valid) c.areas))) rfl rfl (Domain.names_setConfig (h.good d hdm).ids (Domain.findConfig_mem hc).1
          (c' := Config.mk c.id c.name c.rule (setArea q
            (Area.mk a.elem (Elem.setText env.rd ctx env.root base a.board path text).2 a.valid) c.areas)) rfl rfl))
        dsimp only
        split
        · split <;> exact key
        · exact key
      · exact hn
  | setParameter ctx autoSync path text => exact hn
  | setElementBytes autoSync path bytes =>
    simp only [DomOp.step, St.atPath]
    split
    · exact hn
    · exact hn
  | handleSet p v => exact hn
  | handleBytes autoSync p bytes =>
    simp only [DomOp.step]
    split
    · exact hn
    · exact hn
  | setElementXml ctx autoSync path doc =>
    simp only [DomOp.step, St.atPath]
    split
    · exact hn
    · exact hn
  | handleXml ctx autoSync p doc =>
    simp only [DomOp.step]
    split
    · exact hn
    · exact hn
  | importDomains withSettings doc =>
    simp only [DomOp.step]
    by_cases hok : (st.importDomains env.root env.rd withSettings doc).1 = .ok ()
    · obtain ⟨ds, att, n, gm, h1, h2, h3, _⟩ := h.importDomains_ok wf env.rd withSettings hok
      obtain ⟨_, _, b3, _, hl, hr⟩ := domainsFromXml_spec wf (by simp) h1
      have hread : ∀ (k : Nat) (hk : k < ds.length), ∃ hk' : k < doc.children.length,
          ds[k].name = doc.children[k].nameAttr ∧
          ∀ a ∈ ds[k].names, ∀ b ∈ ds[k].names, a.2 = b.2 → a.2 ≠ [] → a.1 = b.1 := by
        intro k hk
        have hk' : k < doc.children.length := by omega
        refine ⟨hk', ?_⟩
        obtain ⟨n', att0, aware, att', m, e1, _, e2⟩ := hr k doc.children[k] ds[k] (List.getElem?_eq_getElem (by omega))
          (List.getElem?_eq_getElem hk)
        exact ⟨(Domain.fromXml_head wf e1 e2).2.2.1, Domain.fromXml_names wf e1 e2 (hreg.2 _ (List.getElem_mem _))⟩
      have hmap : ds.map Domain.name = doc.children.map Xml.nameAttr := by
        apply List.ext_getElem
        · simp [hl]
        · intro k k1 k2
          simp only [List.getElem_map]
          exact (hread k (by simpa using k1)).2.1
      have hdis := hreg.1
      unfold Xml.NamesDistinct at hdis
      rw [← hmap] at hdis
      have hnm : ∀ d ∈ ds, ((gm d).id, (gm d).name, (gm d).names) = (d.id, d.name, d.names) := by
        intro d hd
        obtain ⟨g, k1, k2, _⟩ := h3 d hd
        rw [k1]
        have := Domain.names_map (d := d) (d' := { d with configs := d.configs.map g }) rfl k2
        rw [this]
      rw [h2]
      refine ⟨?_, ?_⟩
      · intro x hx y hy hxy hne
        obtain ⟨u', hu', rfl⟩ := List.mem_map.1 hx
        obtain ⟨v', hv', rfl⟩ := List.mem_map.1 hy
        obtain ⟨u, hu, rfl⟩ := List.mem_map.1 hu'
        obtain ⟨v, hv, rfl⟩ := List.mem_map.1 hv'
        rw [hnm u hu, hnm v hv] at hxy ⊢
        rw [hnm u hu] at hne
        rw [distinct_inj hdis hu hv hxy hne]
      · intro x hx
        obtain ⟨u', hu', rfl⟩ := List.mem_map.1 hx
        obtain ⟨u, hu, rfl⟩ := List.mem_map.1 hu'
        rw [hnm u hu]
        obtain ⟨k, hk, rfl⟩ := List.getElem_of_mem hu
        exact (hread k hk).2.2
    · rw [St.importDomains_fail hok]
      exact ⟨fun x hx => by simp [St.deleteAllDomains, St.names] at hx, fun x hx => by simp [St.deleteAllDomains, St.names] at hx⟩
  | importDomain overwrite withSettings doc =>
    simp only [DomOp.step]
    by_cases hok : (st.importDomain env.root env.rd overwrite withSettings doc).1 = .ok ()
    · obtain ⟨aware, d, att, n, _, _, h3, h4⟩ := St.importDomain_ok hok
      have hd := Domain.fromXml_names wf h.fresh_attached h3 hreg.1
      have key : ∀ ds : List Domain, (∀ x ∈ ds, x ∈ st.domains) → (∀ x ∈ ds, x.name = d.name → d.name ≠ [] → False) →
          NamesOK ((ds ++ [d]).map fun d => (d.id, d.name, d.names)) := by
        intro ds hds hno
        refine ⟨?_, ?_⟩
        · intro x hx y hy hxy hne
          obtain ⟨u, hu, rfl⟩ := List.mem_map.1 hx
          obtain ⟨v, hv, rfl⟩ := List.mem_map.1 hy
          rcases List.mem_append.1 hu with hu | hu <;> rcases List.mem_append.1 hv with hv | hv
          · exact hn.domains _ (old u (hds u hu)) _ (old v (hds v hv)) hxy hne
          · rw [List.mem_singleton.1 hv] at hxy
            exact (hno u hu hxy (fun e => hne (Eq.trans hxy e))).elim
          · rw [List.mem_singleton.1 hu] at hxy hne
            exact (hno v hv hxy.symm hne).elim
          · rw [List.mem_singleton.1 hu, List.mem_singleton.1 hv]
        · intro x hx
          obtain ⟨u, hu, rfl⟩ := List.mem_map.1 hx
          rcases List.mem_append.1 hu with hu | hu
          · exact hn.configs _ (old u (hds u hu))
          · rw [List.mem_singleton.1 hu]; exact hd
      rcases h4 with ⟨hf, h4⟩ | ⟨o, hf, _, h4⟩
      · rw [h4]
        refine key _ (fun _ h => h) ?_
        intro y hy hyn hne
        have := List.find?_eq_none.1 hf y hy
        rw [pathName_of_ne (by rw [hyn]; exact hne), hyn] at this
        simp at this
      · rw [h4]
        refine key _ (fun x hx => (List.mem_filter.1 hx).1) ?_
        intro y hy hyn hne
        obtain ⟨hom, hon⟩ := St.findDomain_mem hf
        have hon' : o.name = d.name := by
          by_cases ho : o.name = []
          · have hdn := (Domain.fromXml_head wf h.fresh_attached h3).2.2.1
            simp only [Domain.pathName, ho, ne_eq, not_true_eq_false, if_false] at hon
            exact absurd (hdn.symm.trans hon.symm) hreg.2.2
          · rw [pathName_of_ne ho] at hon; exact hon
        have := hn.domains _ (old y (List.mem_filter.1 hy).1) _ (old o hom) (hyn.trans hon'.symm) (hyn ▸ hne)
        have h2 := (List.mem_filter.1 hy).2
        simp only [ne_eq, decide_eq_true_eq] at h2
        exact h2 this
    · rw [St.importDomain_fail hok]
      exact hn
  | sync => exact hn
  | setCriterion i v => exact hn
  | askResync i => exact hn
  | apply force =>
    obtain ⟨b, log, h1, _⟩ := h.apply_eq wf env.hw force
    simp only [DomOp.step, h1]
    refine same ?_
    unfold St.names
    rw [List.map_map]
    exact List.map_congr_left (fun d _ => rfl)

theorem Reachable.names {env : Env} (wf : env.root.WF) {cs : List Criterion} {st : St} (h : Reachable env cs st) :
    NamesOK st.names := by
  induction h with
  | init _ => exact ⟨fun x hx => by simp [St.initial, St.names] at hx, fun x hx => by simp [St.initial, St.names] at hx⟩
  | step hr hreg _ ih => exact ih.step wf (hr.inv wf) _ hreg

end PF
