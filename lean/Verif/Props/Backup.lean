import Verif.Lemmas.ConfigParam
import Verif.Spec.Backup
import Verif.Props.Answer
import Verif.Props.XmlDomains

/-!
# C84: backups made by commands
-/

namespace PF
open Spec

/-- **C84 (files).**  A session that does not ask for a document in a file leaves it as it is, whatever else it asks. -/
theorem C84_file_kept (u : Unmodelled) (e : MEnv) (h : Host) (f : Str) (rs : List Request) (hk : KeepsFile f rs) :
    (handleAll (remoteCommand u e) h rs).1.files f = h.files f := by
  have one : ∀ (h : Host) (r : Request), (∀ doc, ¬ Exports (bytesStr r.command) (r.arguments.map bytesStr) f doc) →
      (remoteCommand u e h r).2.files f = h.files f := by
    intro h r hr
    simp only [remoteCommand]
    rcases C47_changes u e h (bytesStr r.command) (r.arguments.map bytesStr) with k | ⟨op, _, k⟩ | ⟨file, doc, hx, _, k⟩
    · rw [k]
    · rw [k]
    · refine k f ?_
      rintro rfl
      exact hr doc hx
  induction rs generalizing h with
  | nil => rfl
  | cons r rs ih =>
    have h1 := one h r (hk r (by simp))
    cases hr : (remoteCommand u e h r).1 with
    | none => simp only [handleAll, hr]; exact h1
    | some a =>
      simp only [handleAll, hr]
      rw [ih _ fun r' hr' => hk r' (by simp [hr'])]
      exact h1

/-- **C84 (all domains).**  All domains are exported with their settings; then any session is held that does not write the
same file; then, in tuning mode, the file is imported.  Both commands succeed, and the domains are those that were
exported, with the same settings.  The parameters of the system are not touched by the import. -/
theorem C84_backup_partial {u : Unmodelled} {e : MEnv} (wf : e.env.root.WF) (fd : e.env.root.FieldsDisjoint)
    (g : e.env.root.GoodNames) (hn : e.env.root.name ≠ []) (hrd : ReadsDecimals e.env.rd)
    {cs : List Criterion} {h : Host} (hm : MReachable e cs h.mgr) (hu : ReadsBack u (h.mgr.st.exportDomains e.env.root h.mgr.ctx true))
    (hst : ∀ d ∈ h.mgr.st.domains, DomainStorable e h.mgr d)
    {f : Str} (hw : u.writable f = true) {saved : Option (Bool × Str) × Host}
    (hsaved : saved = processCommand (mgrHandler u e) h (s "exportDomainsWithSettingsXML") [f])
    {rs : List Request} (hx : RegularSession u e saved.2 rs) (hk : KeepsFile f rs) {h2 : Host}
    (hh2 : h2 = (handleAll (remoteCommand u e) saved.2 rs).1)
    (hclosed : (handleAll (remoteCommand u e) saved.2 rs).2.2 = .closed) (ht : h2.mgr.tuning = true)
    {loaded : Option (Bool × Str) × Host}
    (hloaded : loaded = processCommand (mgrHandler u e) h2 (s "importDomainsWithSettingsXML") [f]) :
    saved.1 = some (true, s "Done") ∧ loaded.1 = some (true, s "Done") ∧
    Spec.Alike (SameDomain (SameConfig e.env.root)) h.mgr.st.domains loaded.2.mgr.st.domains ∧
    loaded.2.mgr.st.mem = h2.mgr.st.mem ∧ MReachable e cs loaded.2.mgr := by
  have trip := fun (st2 : St) (hr2 : Reachable e.env cs st2) => C63_round_trip_partial (env := e.env) wf fd g hn hrd
    hm.reachable hr2 true h.mgr.ctx (fun hr _ d hd => (hst d hd).raw hr) (fun d hd => (hst d hd).names) (fun d hd => (hst d hd).rules)
    (fun _ d hd => (hst d hd).settings)
  obtain ⟨doc, hdoc, _⟩ := trip _ hm.reachable
  have hexp := (C47_exports u e h _ _ f _ (.domainsSettings f [])).1 doc hdoc hw
  rw [hexp] at hsaved
  subst hsaved
  have hm2 : MReachable e cs h2.mgr := by
    rw [hh2]
    exact C47_remote_reachable u e cs ⟨h.mgr, fun f' => if f' = f then some (u.print doc) else h.files f'⟩ hm rs hx hclosed
  obtain ⟨doc', hdoc', hreg, hok, _, hal⟩ := trip _ hm2.reachable
  rw [hdoc] at hdoc'
  obtain rfl : doc = doc' := by simpa using hdoc'
  have hfile : (u.docs h2.files).file f = some doc := by
    have := C84_file_kept u e ⟨h.mgr, fun f' => if f' = f then some (u.print doc) else h.files f'⟩ f rs hk
    rw [← hh2] at this
    simp [Unmodelled.docs, this, hu doc hdoc]
  have hrun : (MOp.importDomains true doc).step e h2.mgr = h2.mgr.run e (.importDomains true doc) := by
    simp [MOp.step, Mgr.tuned, ht]
  have hmean := C47_means u e h2 _ _ _ (.importDomainsSettings f doc [] hfile)
  have hrok : ((MOp.importDomains true doc).step e h2.mgr).1 = .ok () := by rw [hrun]; exact hok
  have h3 : loaded.2.mgr = (h2.mgr.run e (.importDomains true doc)).2 := by rw [hloaded, hmean.1, hrun]
  refine ⟨rfl, by rw [hloaded]; exact hmean.2.1 hrok, ?_, ?_, ?_⟩
  · rw [h3]
    exact hal rfl
  · rw [h3]
    exact (C64_imports_keep_parameters e.env h2.mgr.st false true doc).1
  · rw [h3, ← hrun]
    exact .step hm2 hreg (by rw [hrok]; simp)

/-- **C84 (texts).**  The same with the text that `getDomainsWithSettingsXML` answers: given to `setDomainsWithSettingsXML`
in tuning mode, after whatever history, it gives the domains back. -/
theorem C84_text_partial {u : Unmodelled} {e : MEnv} (wf : e.env.root.WF) (fd : e.env.root.FieldsDisjoint)
    (g : e.env.root.GoodNames) (hn : e.env.root.name ≠ []) (hrd : ReadsDecimals e.env.rd)
    {cs : List Criterion} {h h2 : Host} (hm : MReachable e cs h.mgr) (hu : ReadsBack u (h.mgr.st.exportDomains e.env.root h.mgr.ctx true))
    (hm2 : MReachable e cs h2.mgr)
    (hst : ∀ d ∈ h.mgr.st.domains, DomainStorable e h.mgr d) (ht : h2.mgr.tuning = true) :
    ∃ text, processCommand (mgrHandler u e) h (s "getDomainsWithSettingsXML") [] = (some (true, text), h) ∧
      (processCommand (mgrHandler u e) h2 (s "setDomainsWithSettingsXML") [text]).1 = some (true, s "Done") ∧
      Spec.Alike (SameDomain (SameConfig e.env.root)) h.mgr.st.domains
        (processCommand (mgrHandler u e) h2 (s "setDomainsWithSettingsXML") [text]).2.mgr.st.domains := by
  obtain ⟨doc, hdoc, hreg, hok, _, hal⟩ := C63_round_trip_partial (env := e.env) wf fd g hn hrd
    hm.reachable hm2.reachable true h.mgr.ctx (fun hr _ d hd => (hst d hd).raw hr) (fun d hd => (hst d hd).names) (fun d hd => (hst d hd).rules)
    (fun _ d hd => (hst d hd).settings)
  have hr := C47_reads u e h _ _ _ (.domainsXml [])
  have hv : printed u.print (h.mgr.st.exportDomains e.env.root h.mgr.ctx true) = .ok (u.print doc) := by rw [hdoc]; rfl
  have hmean := C47_means u e h2 _ _ _ (.setDomains (u.print doc) doc [] (hu doc hdoc))
  have hrun : (MOp.importDomains true doc).step e h2.mgr = h2.mgr.run e (.importDomains true doc) := by
    simp [MOp.step, Mgr.tuned, ht]
  have hrok : ((MOp.importDomains true doc).step e h2.mgr).1 = .ok () := by rw [hrun]; exact hok
  refine ⟨u.print doc, Prod.ext (hr.2.1 _ hv) hr.1, hmean.2.1 hrok, ?_⟩
  rw [hmean.1, hrun]
  exact hal rfl

/-- **C84 (one domain).**  A domain is exported to a file; when the file holds that text, `importDomainWithSettingsXML` with
`overwrite`, in tuning mode, after whatever history, puts the domain as it was behind the other ones, in place of the one
of the same name. -/
theorem C84_one_partial {u : Unmodelled} {e : MEnv} (wf : e.env.root.WF) (fd : e.env.root.FieldsDisjoint)
    (g : e.env.root.GoodNames) (hn : e.env.root.name ≠ []) (hrd : ReadsDecimals e.env.rd)
    {cs : List Criterion} {h h2 : Host} (hm : MReachable e cs h.mgr) (hm2 : MReachable e cs h2.mgr) {d : Domain}
    (hu : ReadsBack u (h.mgr.st.exportDomain e.env.root h.mgr.ctx true d.name)) (hd : d ∈ h.mgr.st.domains) (hdn : d.name ≠ []) (hdc : d.name ≠ s "ConfigurableDomain") (hst : DomainStorable e h.mgr d)
    {f : Str} (hw : u.writable f = true) (ht : h2.mgr.tuning = true)
    (hf : h2.files f = (processCommand (mgrHandler u e) h (s "exportDomainWithSettingsXML") [d.name, f]).2.files f) :
    (processCommand (mgrHandler u e) h (s "exportDomainWithSettingsXML") [d.name, f]).1 = some (true, s "Done") ∧
    (processCommand (mgrHandler u e) h2 (s "importDomainWithSettingsXML") [f, s "overwrite"]).1 = some (true, s "Done") ∧
    ∃ d', (processCommand (mgrHandler u e) h2 (s "importDomainWithSettingsXML") [f, s "overwrite"]).2.mgr.st.domains =
        h2.mgr.st.domains.filter (fun x => x.name ≠ d.name) ++ [d'] ∧ SameDomain (SameConfig e.env.root) d d' := by
  obtain ⟨doc, hdoc, hok, d', hds, _, hsame⟩ := C63_round_trip_one_partial (env := e.env) wf fd g hn hrd
    hm.reachable hm2.reachable true h.mgr.ctx (fun hr _ => hst.raw hr) hd hdn hdc hst.names hst.rules (fun _ => hst.settings) true (.inl rfl)
  have hexp := (C47_exports u e h _ _ f _ (.domain d.name f [])).1 doc hdoc hw
  have hfile : (u.docs h2.files).file f = some doc := by
    rw [hexp] at hf
    simp [Unmodelled.docs, hf, hu doc hdoc]
  have hmean := C47_means u e h2 _ _ _ (.importDomainOver f doc [] hfile)
  have hrun : (MOp.importDomain true true doc).step e h2.mgr = h2.mgr.run e (.importDomain true true doc) := by
    simp [MOp.step, Mgr.tuned, ht]
  have hrok : ((MOp.importDomain true true doc).step e h2.mgr).1 = .ok () := by rw [hrun]; exact hok
  refine ⟨by rw [hexp], hmean.2.1 hrok, d', ?_, hsame rfl⟩
  rw [hmean.1, hrun]
  exact hds

/-- **C84 (an element).**  The text that `getElementXML` answers, given to `setElementXML` in tuning mode after whatever
history, gives every parameter of the element the value that it had, and no other parameter changes.  Values exported in the
raw value space have to be imported in it, or to have no negative number of an enumeration. -/
theorem C84_element_partial {u : Unmodelled} {e : MEnv} (wf : e.env.root.WF) (fd : e.env.root.FieldsDisjoint)
    (hrd : ReadsDecimals e.env.rd) {cs : List Criterion} {h h2 : Host} (hm : MReachable e cs h.mgr)
    (hm2 : MReachable e cs h2.mgr) {path : Str} {p : Pos} {el : Elem} {off : Nat} (hl : e.env.root.locate path = some p)
    (he : e.env.root.at? p = some el) (ho : e.env.root.offset 0 p = some off)
    (hu : ∀ x, e.env.root.getXml h.mgr.ctx h.mgr.st.mem.main p = .ok x → u.parse (u.print x.xml) = some x.xml)
    (hc : el.Carried h.mgr.ctx h.mgr.st.mem.main off) 
    (hraw : h.mgr.raw = true → h2.mgr.raw = true ∨ el.NonNegative h.mgr.st.mem.main off)
    (ht : h2.mgr.tuning = true) :
    ∃ text, processCommand (mgrHandler u e) h (s "getElementXML") [path] = (some (true, text), h) ∧
      (h2.mgr.autoSync = false →
        (processCommand (mgrHandler u e) h2 (s "setElementXML") [path, text]).1 = some (true, s "Done")) ∧
      (∀ path' q f, e.env.root.locate path' = some q → p <+: q → e.env.root.at? q = some f → f.kind.isParameter = true → ∀ ctx,
        Elem.getText ctx e.env.root 0 (processCommand (mgrHandler u e) h2 (s "setElementXML") [path, text]).2.mgr.st.mem.main path' =
          Elem.getText ctx e.env.root 0 h.mgr.st.mem.main path') ∧
      ∀ i, ¬ e.env.root.Owns p i →
        (processCommand (mgrHandler u e) h2 (s "setElementXML") [path, text]).2.mgr.st.mem.main.bit i =
          h2.mgr.st.mem.main.bit i := by
  obtain ⟨x, b, hx, hb, hsame, _, hout⟩ := C53_round_trip_partial e.env.root wf fd he ho e.env.rd hrd h.mgr.ctx h2.mgr.ctx
    h.mgr.st.mem.main h2.mgr.st.mem.main hraw (hm.reachable.inv wf).main (hm2.reachable.inv wf).main hc
  have hr := C47_reads u e h _ _ _ (.elementXml path [])
  have hmean := C47_means u e h2 _ _ _ (.setElementXml path (u.print x.xml) x.xml [] (hu x hx))
  have hmain : ((MOp.setElementXml path x.xml.settings).step e h2.mgr).2.st.mem.main = b := by
    simp only [MOp.step, Mgr.tuned, ht, Bool.not_true, Bool.false_eq_true, if_false, Mgr.run, DomOp.step, St.atPath, hl,
      Env.setMainXml, XElem.xml_settings, hb]
    split <;> rfl
  refine ⟨u.print x.xml, Prod.ext (hr.2.1 _ ?_) hr.1, fun ha => hmean.2.1 ?_, ?_, ?_⟩
  · simp [hl, hx]
  · simp only [MOp.step, Mgr.tuned, ht, Bool.not_true, Bool.false_eq_true, if_false, Mgr.run, DomOp.step, St.atPath, hl,
      Env.setMainXml, XElem.xml_settings, hb, ha]
    rfl
  · intro path' q f hl' hpq hf hk ctx
    rw [hmean.1, hmain]
    unfold Elem.getText
    rw [wf.access_of_locate hl' hf hk]
    obtain ⟨r, rfl⟩ := hpq
    obtain ⟨o, ho'⟩ := Elem.offset_of_at (off := 0) hf
    have h1 : el.at? r = some f := by rw [Elem.at?_append, he] at hf; simpa using hf
    have h2 : el.offset off r = some o := by rw [Elem.offset_append, he, ho] at ho'; simpa using ho'
    simp only [hf, ho']
    exact hsame r f o o h1 hk h2 h2 ctx
  · intro i hi
    rw [hmean.1, hmain]
    exact hout i hi

/-! ## What a backup makes the system do -/

theorem Spec.Alike.flip {α β : Type} {R : α → β → Prop} {l : List α} {l' : List β} (h : Alike R l l') :
    Alike (fun b a => R a b) l' l := ⟨h.1.symm, fun k a b ha hb => h.2 k b a hb ha⟩

theorem Spec.Alike.get {α β : Type} {R : α → β → Prop} {l : List α} {l' : List β} (h : Alike R l l') {k : Nat} {a : α}
    (ha : l[k]? = some a) : ∃ b, l'[k]? = some b ∧ R a b := by
  have hk : k < l.length := (List.getElem?_eq_some_iff.1 ha).1
  rw [h.1] at hk
  exact ⟨l'[k], List.getElem?_eq_getElem hk, h.2 k a _ ha (List.getElem?_eq_getElem hk)⟩

theorem Spec.FirstQualifying.transfer {cs : List Criterion} {R : Config → Config → Prop} (hR : ∀ c c', R c c' → c'.rule = c.rule)
    {l l' : List Config} (h : Alike R l l') {c : Config} (hq : FirstQualifying cs l c) :
    ∃ (k : Nat) (c' : Config), l[k]? = some c ∧ l'[k]? = some c' ∧ R c c' ∧ FirstQualifying cs l' c' := by
  obtain ⟨pre, post, rfl, hc, hpre⟩ := hq
  have h0 : (pre ++ c :: post)[pre.length]? = some c := by simp
  obtain ⟨c', h1, h2⟩ := h.get h0
  have hqual : ∀ {x y : Config}, R x y → (Qualifies cs y ↔ Qualifies cs x) := by
    intro x y hxy
    unfold Qualifies
    rw [hR x y hxy]
  refine ⟨pre.length, c', h0, h1, h2, l'.take pre.length, l'.drop (pre.length + 1), ?_, (hqual h2).2 hc, ?_⟩
  · have hk : pre.length < l'.length := (List.getElem?_eq_some_iff.1 h1).1
    have := (List.getElem?_eq_some_iff.1 h1).2
    rw [← this, List.getElem_cons_drop, List.take_append_drop]
  · intro y hy
    obtain ⟨j, hj⟩ := List.mem_iff_getElem?.1 hy
    have hjl : j < pre.length := by
      have := (List.getElem?_eq_some_iff.1 hj).1
      simp only [List.length_take] at this
      omega
    rw [List.getElem?_take_of_lt hjl] at hj
    obtain ⟨x, hx, hxy⟩ := h.flip.get hj
    rw [List.getElem?_append_left hjl] at hx
    exact fun hyq => hpre x (List.mem_of_getElem? hx) ((hqual hxy).1 hyq)

/-- Restored domains, and a blackboard to which the configurations that they select have been written. -/
theorem restored_text {root : Elem} (wf : root.WF) {st st3 : St} (inv : st.Inv root)
    (hs : ∀ d ∈ st3.domains, ∀ c ∈ d.configs, ∀ a ∈ c.areas, ∀ p e n base off, a.elem <+: p → root.at? p = some e →
      e.kind = .string n → root.offset 0 a.elem = some base → root.offset 0 p = some off → Ends a.board (off - base) n)
    (hal : Spec.Alike (SameDomain (SameConfig root)) st.domains st3.domains) {cs : List Criterion} {main : Board}
    (hmain : main.length = root.footprint)
    (hbits : ∀ (k : Nat) (d : Domain), st3.domains[k]? = some d → ∀ c, FirstQualifying cs d.configs c →
      ∀ a ∈ c.areas, ∀ i, root.Owns a.elem i →
        (∀ d' ∈ st3.domains, d' ≠ d → (∃ c' ∈ d'.configs, Qualifies cs c') → ∀ q ∈ d'.elems, ¬ root.Owns q i) →
        main.bit i = a.value root i) :
    ∀ d ∈ st.domains, ∀ c, FirstQualifying cs d.configs c → ∀ a ∈ c.areas, ∀ path q f base,
      root.locate path = some q → a.elem <+: q → root.at? q = some f → f.kind.isParameter = true →
      root.offset 0 a.elem = some base →
      (∀ d' ∈ st.domains, d' ≠ d → (∃ c' ∈ d'.configs, Qualifies cs c') → ∀ x ∈ d'.elems, ∀ i,
        root.Owns q i → ¬ root.Owns x i) →
      ∀ ctx, Elem.getText ctx root 0 main path = Elem.getText ctx root base a.board path := by
  intro d hd c hc a ha path q f base hl haq hf hk hb hother ctx
  obtain ⟨k, hkd⟩ := List.mem_iff_getElem?.1 hd
  obtain ⟨d3, hd3, -, -, hel, hcs⟩ := hal.get hkd
  obtain ⟨kc, c3, hkc, hkc3, ⟨_, hareas⟩, hq3⟩ := Spec.FirstQualifying.transfer (fun c c' h => h.1.2) hcs hc
  obtain ⟨ka, hka⟩ := List.mem_iff_getElem?.1 ha
  obtain ⟨a3, ha3, hae, _, el, he, hl3, hsame⟩ := hareas.get hka
  have hd3m := List.mem_of_getElem? hd3
  have hc3m := List.mem_of_getElem? hkc3
  have ha3m := List.mem_of_getElem? ha3
  have hbit := fun i hi => hbits k d3 hd3 c3 hq3 a3 ha3m i hi
  rw [hae] at hbit
  obtain ⟨o, ho⟩ := Elem.offset_of_at (off := 0) hf
  have hle := Elem.offset_le wf haq he hf hb ho
  have hvp : ∀ i, root.Owns q i → main.bit i = a3.value root i := by
    intro i hi
    refine hbit i (Owns.up wf haq hi) fun d' hd' hne hqual x hx hxi => ?_
    obtain ⟨k', hk'⟩ := List.mem_iff_getElem?.1 hd'
    obtain ⟨d0, hd0, -, -, hel', hcs'⟩ := hal.flip.get hk'
    have hne' : d0 ≠ d := by
      rintro rfl
      have hkk : k' = k := by
        have hnd := inv.ids
        have h1 : (st.domains.map Domain.id)[k']? = some d0.id := by rw [List.getElem?_map, hd0]; rfl
        have h2 : (st.domains.map Domain.id)[k]? = some d0.id := by rw [List.getElem?_map, hkd]; rfl
        obtain ⟨h3, h4⟩ := List.getElem?_eq_some_iff.1 h1
        obtain ⟨h5, h6⟩ := List.getElem?_eq_some_iff.1 h2
        exact (List.Nodup.getElem_inj_iff hnd).1 (h4.trans h6.symm)
      subst hkk
      rw [hd3] at hk'
      exact hne (by simpa using hk'.symm)
    obtain ⟨c', hc', hc'q⟩ := hqual
    obtain ⟨j, hj⟩ := List.mem_iff_getElem?.1 hc'
    obtain ⟨c0, hc0, hsc⟩ := hcs'.flip.get hj
    have hq0 : Qualifies cs c0 := by
      unfold Qualifies at hc'q ⊢
      rwa [← hsc.1.2]
    rw [hel'] at hx
    exact hother d0 (List.mem_of_getElem? hd0) hne' ⟨c0, List.mem_of_getElem? hc0, hq0⟩ x hx i hi hxi
  obtain ⟨_, hlike⟩ := area_alike wf haq hf ho he hb hae hl3 hmain hvp
  have key : getParamText ctx f.kind a3.board o base [] = getParamText ctx f.kind main o 0 [] := by
    refine getParamText_alike (e := f) (fun t hk => (wf.bit_wf hf t hk).1) hle (Nat.zero_le _) hlike fun n hn => ?_
    obtain ⟨j, h1, h2, h3⟩ := hs d3 hd3m c3 hc3m a3 ha3m q f n base o (by rw [hae]; exact haq) hf hn
      (by rw [hae]; exact hb) ho
    have hin := wf.area_inside haq he hf hb ho
    rw [Elem.string_size hn] at hin
    refine ⟨(a3.board.drop (o - base)).take (stringSize n), ?_, ?_⟩
    · unfold Board.read
      rw [if_pos (by unfold stringSize; omega)]
    · refine List.mem_of_getElem? (i := j - (o - base)) ?_
      rw [List.getElem?_take_of_lt (by unfold stringSize; omega), List.getElem?_drop]
      rw [show o - base + (j - (o - base)) = j by omega]
      exact h3
  unfold Elem.getText
  rw [wf.access_of_locate hl hf hk]
  simp only [hf, ho]
  rw [← key, getParamText_base hle, getParamText_base hle]
  obtain ⟨r, rfl⟩ := haq
  have h1 : el.at? r = some f := by rw [Elem.at?_append, he] at hf; simpa using hf
  have h2 : el.offset 0 r = some (o - base) := by
    obtain ⟨v, hv⟩ := Elem.offset_of_at (off := 0) h1
    rw [Elem.offset_append, hb, he] at ho
    simp only [Option.bind_some] at ho
    rw [Elem.offset_shift hv] at ho
    simp only [Option.some.injEq] at ho
    rw [hv, ← ho, Nat.add_sub_cancel_left]
  exact hsame r f _ _ h1 hk h2 h2 ctx

/-- **C84 (behaviour).**  The manager holds, in tuning mode, domains restored from a backup (as in `C84_backup_partial`).
When the tuning mode is left, each parameter of a domain that was saved takes the value that it had in the settings of the
configuration that is the first to qualify now; other domains to which the parameter belongs have no say if none of their
configurations qualifies. -/
theorem C84_applied {e : MEnv} (wf : e.env.root.WF) (fd : e.env.root.FieldsDisjoint) {cs : List Criterion} {m m3 : Mgr}
    (hm : MReachable e cs m) (hm3 : MReachable e cs m3) (hs : StringsEnd e.env.root m3.st) (ht : m3.tuning = true)
    (hal : Spec.Alike (SameDomain (SameConfig e.env.root)) m.st.domains m3.st.domains) :
    ∃ m', (MOp.setTuningMode false).step e m3 = (.ok (), m') ∧
    ∀ d ∈ m.st.domains, ∀ c, FirstQualifying m3.st.criteria d.configs c → ∀ a ∈ c.areas, ∀ path q f base,
      e.env.root.locate path = some q → a.elem <+: q → e.env.root.at? q = some f → f.kind.isParameter = true →
      e.env.root.offset 0 a.elem = some base →
      (∀ d' ∈ m.st.domains, d' ≠ d → (∃ c' ∈ d'.configs, Qualifies m3.st.criteria c') → ∀ x ∈ d'.elems, ∀ i,
        e.env.root.Owns q i → ¬ e.env.root.Owns x i) →
      ∀ ctx, Elem.getText ctx e.env.root 0 m'.st.mem.main path = Elem.getText ctx e.env.root base a.board path := by
  obtain ⟨m', hstep, _, h14⟩ := C14_leaving_tuning_mode wf fd hm3 ht
  have h4 : MReachable e cs ((MOp.setTuningMode false).step e m3).2 := .step hm3 trivial (by rw [hstep]; simp)
  rw [hstep] at h4
  exact ⟨m', hstep, restored_text wf (hm.reachable.inv wf) hs.settings hal (h4.reachable.inv wf).main
    fun k d hd c hc => (h14 k d hd c hc).2⟩

/-! ## A backup of the sample -/

namespace Sample

/-- The sample structure with tuning allowed and an exact reader of decimals. -/
noncomputable def exactMenv : MEnv := ⟨exactEnv, true, fun p => p.sum⟩

theorem exact_mreachable : MReachable exactMenv criteria mgr := by
  have h0 : mruns exactMenv mops (Mgr.initial root criteria) = true := by decide +kernel
  have h1 : (mrun exactMenv mops (Mgr.initial root criteria)).st = st := by decide +kernel
  have h2 : (mrun exactMenv mops (Mgr.initial root criteria)).tuning = true := by decide +kernel
  have h3 : (mrun exactMenv mops (Mgr.initial root criteria)).autoSync = true := by decide +kernel
  have h4 : (mrun exactMenv mops (Mgr.initial root criteria)).raw = false := by decide +kernel
  have h5 : (mrun exactMenv mops (Mgr.initial root criteria)).hex = false := by decide +kernel
  have : mrun exactMenv mops (Mgr.initial root criteria) = mgr := by
    cases hm : mrun exactMenv mops (Mgr.initial root criteria) with
    | mk a b c d e => rw [hm] at h1 h2 h3 h4 h5; simp only at h1 h2 h3 h4 h5; rw [h1, h2, h3, h4, h5]; rfl
  exact this ▸ mrun_reachable .start h0

theorem storable {d : Domain} (hd : d ∈ mgr.st.domains) : DomainStorable exactMenv mgr d :=
  ⟨fun h => absurd h (by decide), fun _ hc => named hd hc, fun _ hc _ hr => writable hd hc hr, fun _ hc _ ha _ he => areas_carried hd hc ha he⟩

/-- A file system on which everything can be written, where the only document is `x`. -/
def carries (x : Xml) : Unmodelled := ⟨fun _ _ _ => [], fun _ _ _ => .succeeded, fun _ => some x, fun _ => [], fun _ => true⟩

/-- The request that deletes all domains. -/
def wipe : Request := ⟨strBytes (s "deleteAllDomains"), []⟩

theorem wipe_means {w : Docs} {cmd : Str} {args : List Str} {op : MOp} (h : Means w cmd args op)
    (hc : cmd = s "deleteAllDomains") : op = .deleteAllDomains := by
  cases h <;> first | rfl | exact absurd hc (by decide)

theorem one_request {u : Unmodelled} {e : MEnv} {h : Host} {r : Request} {op : MOp}
    (hop : Means (u.docs h.files) (bytesStr r.command) (r.arguments.map bytesStr) op) (ok : (op.step e h.mgr).1 = .ok ()) :
    (handleAll (remoteCommand u e) h [r]).2.2 = .closed ∧
      (handleAll (remoteCommand u e) h [r]).1.mgr = (op.step e h.mgr).2 := by
  have hm := C47_means u e h _ _ _ hop
  have h1 : (remoteCommand u e h r).1 = some ⟨true, strBytes (s "Done")⟩ := by
    simp only [remoteCommand]; rw [hm.2.1 ok]; rfl
  have h2 : (remoteCommand u e h r).2.mgr = (op.step e h.mgr).2 := by
    simp only [remoteCommand]; rw [hm.1]
  simp only [handleAll, h1]
  exact ⟨trivial, h2⟩

theorem wipe_args : bytesStr wipe.command = s "deleteAllDomains" ∧ wipe.arguments.map bytesStr = [] := by decide

theorem wipe_ok : (MOp.deleteAllDomains.step exactMenv mgr).1 = .ok () := by decide +kernel

end Sample

/-- All domains of the sample are exported, then deleted by a request, then imported: they are back. -/
example : ∃ (u : Unmodelled) (h2 : Host) (loaded : Option (Bool × Str) × Host),
    h2 = (handleAll (remoteCommand u Sample.exactMenv) (processCommand (mgrHandler u Sample.exactMenv)
      ⟨Sample.mgr, fun _ => none⟩ (s "exportDomainsWithSettingsXML") [s "f.xml"]).2 [Sample.wipe]).1 ∧
    h2.mgr.st.domains = [] ∧
    loaded = processCommand (mgrHandler u Sample.exactMenv) h2 (s "importDomainsWithSettingsXML") [s "f.xml"] ∧
    loaded.1 = some (true, s "Done") ∧
    Spec.Alike (SameDomain (SameConfig Sample.root)) Sample.mgr.st.domains loaded.2.mgr.st.domains ∧
    loaded.2.mgr.st.domains ≠ [] := by
  obtain ⟨doc, hdoc, _⟩ := C63_round_trip_partial (env := Sample.exactEnv) Sample.wf Sample.fieldsDisjoint Sample.goodNames
    (by decide) (Classical.choose_spec ReadsDecimals.exists) Sample.exact_reachable .start true Sample.ctx (by simp [Sample.ctx])
    (fun d hd c hc => Sample.named hd hc) (fun d hd c hc r hr => Sample.writable hd hc hr)
    (fun _ d hd c hc a ha e he => Sample.areas_carried hd hc ha he)
  have hu : ReadsBack (Sample.carries doc) (Sample.mgr.st.exportDomains Sample.root Sample.mgr.ctx true) := by
    intro x hx
    have : Out.ok x = Out.ok doc := hx.symm.trans hdoc
    simp only [Out.ok.injEq] at this
    subst this
    rfl
  have hexp := (C47_exports (Sample.carries doc) Sample.exactMenv ⟨Sample.mgr, fun _ => none⟩ _ _ (s "f.xml") _
    (.domainsSettings (s "f.xml") [])).1 doc hdoc rfl
  have hmgr : (processCommand (mgrHandler (Sample.carries doc) Sample.exactMenv) ⟨Sample.mgr, fun _ => none⟩
      (s "exportDomainsWithSettingsXML") [s "f.xml"]).2.mgr = Sample.mgr := by rw [hexp]
  have hrun := Sample.one_request (u := Sample.carries doc) (e := Sample.exactMenv) (r := Sample.wipe) (op := .deleteAllDomains)
    (h := (processCommand (mgrHandler (Sample.carries doc) Sample.exactMenv) ⟨Sample.mgr, fun _ => none⟩
      (s "exportDomainsWithSettingsXML") [s "f.xml"]).2)
    (by rw [Sample.wipe_args.1, Sample.wipe_args.2]; exact .deleteAllDomains []) (by rw [hmgr]; exact Sample.wipe_ok)
  rw [hmgr] at hrun
  have h := C84_backup_partial (u := Sample.carries doc) (e := Sample.exactMenv) (cs := Sample.criteria)
    (h := ⟨Sample.mgr, fun _ => none⟩) Sample.wf Sample.fieldsDisjoint Sample.goodNames (by decide)
    (Classical.choose_spec ReadsDecimals.exists) Sample.exact_mreachable hu (fun d hd => Sample.storable hd)
    (f := s "f.xml") rfl rfl (rs := [Sample.wipe])
    ⟨fun op hop => by rw [Sample.wipe_means hop (by decide)]; trivial, trivial⟩
    (fun r hr doc' hx => by
      obtain rfl : r = Sample.wipe := by simpa using hr
      have : ∀ {cmd args f d}, Exports cmd args f d → cmd ≠ s "deleteAllDomains" := by
        intro cmd args f d h
        cases h <;> decide
      exact this hx (by decide)) rfl hrun.1 (by rw [hrun.2]; decide +kernel) rfl
  refine ⟨Sample.carries doc, _, _, rfl, ?_, rfl, h.2.1, h.2.2.1, ?_⟩
  · rw [hrun.2]; decide +kernel
  · intro h0
    have := h.2.2.1.1
    rw [h0] at this
    exact absurd this (by decide +kernel)

theorem Sample.alike : Spec.Alike (SameDomain (SameConfig Sample.root)) Sample.mgr.st.domains Sample.mgr.st.domains := by
  have hv : Sample.mgr.st.domains.all (fun d => d.configs.all fun c => c.areas.all fun a => a.valid) = true := by decide +kernel
  refine ⟨rfl, fun k d d' h h' => ?_⟩
  obtain rfl : d = d' := Option.some.inj (h.symm.trans h')
  have hd := List.mem_of_getElem? h
  refine ⟨rfl, rfl, rfl, rfl, fun k c c' h h' => ?_⟩
  obtain rfl : c = c' := Option.some.inj (h.symm.trans h')
  have hc := List.mem_of_getElem? h
  refine ⟨⟨rfl, rfl⟩, rfl, fun k a a' h h' => ?_⟩
  obtain rfl : a = a' := Option.some.inj (h.symm.trans h')
  have ha := List.mem_of_getElem? h
  have inv := Sample.mreachable.reachable.inv Sample.wf
  obtain ⟨el, he, hl⟩ := (inv.good d hd).ok c hc |>.sized a ha
  refine ⟨rfl, List.all_eq_true.1 (List.all_eq_true.1 (List.all_eq_true.1 hv d hd) c hc) a ha, el, he, hl, ?_⟩
  intro q f o o' _ _ h1 h2 ctx
  rw [h1] at h2
  rw [Option.some.inj h2]

/-- In the sample the volume belongs to no other domain than `V`. -/
theorem Sample.only_V : ∀ d' ∈ Sample.mgr.st.domains, d' ≠ Sample.domV → ∀ x ∈ d'.elems, ∀ i,
    Sample.root.Owns [0, 0, 0] i → ¬ Sample.root.Owns x i := by
  intro d' hd' hne x hx i hi hxi
  obtain rfl : d' = Sample.domQ := by
    have : d' = Sample.domV ∨ d' = Sample.domQ := by simpa [Sample.mgr, Sample.st] using hd'
    simpa [hne] using this
  have hx : x = [0, 0, 1] ∨ x = [0, 1] := by simpa [Sample.domQ] using hx
  have h0 := (Elem.owns_iff (root := Sample.root) (p := [0, 0, 0]) rfl rfl i).1 hi
  simp [Elem.extent, Elem.footprints, Elem.footprint, EKind.ownSize, Elem.kind, ScalarType.size, Sample.component,
      Sample.block, Sample.int16] at h0
  rcases hx with rfl | rfl
  · have h1 := (Elem.owns_iff (root := Sample.root) (p := [0, 0, 1]) rfl rfl i).1 hxi
    simp [Elem.extent, Elem.footprints, Elem.footprint, EKind.ownSize, Elem.kind, ScalarType.size, Sample.component,
      Sample.block, Sample.int16] at h1
    omega
  · have h1 := (Elem.owns_iff (root := Sample.root) (p := [0, 1]) rfl rfl i).1 hxi
    simp [Elem.extent, Elem.footprints, Elem.footprint, EKind.ownSize, Elem.kind, ScalarType.size, Sample.component,
      Sample.block, Sample.int16] at h1
    omega

/-- In the sample, with the domains as they were saved, leaving the tuning mode gives the volume the value of `Calm`, the first
configuration of `V` that qualifies. -/
example : ∃ m', (MOp.setTuningMode false).step Sample.menv Sample.mgr = (.ok (), m') ∧
    Elem.getText ⟨false, false⟩ Sample.root 0 m'.st.mem.main (s "/Sys/sub/comp/vol") = .ok (s "7") := by
  obtain ⟨m', h, hall⟩ := C84_applied Sample.wf Sample.fieldsDisjoint Sample.mreachable Sample.mreachable
    (C83_strings_end Sample.wf Sample.mgr_text).2 rfl Sample.alike
  refine ⟨m', h, ?_⟩
  refine (hall Sample.domV (by decide +kernel) Sample.calm ⟨[Sample.loud], [], rfl, ?_, ?_⟩ _ List.mem_cons_self
    (s "/Sys/sub/comp/vol") [0, 0, 0] _ _ (by decide +kernel) ⟨[], rfl⟩ rfl rfl rfl ?_ _).trans (by decide +kernel)
  · exact ⟨_, rfl, .any _ (.crit 0 .includes 4#32) (by simp) (.crit _ _ _ _ rfl fun i hi => by
      have h45 : (4#32 &&& 5#32) = 4#32 := by decide
      unfold hasBit at hi
      rw [← h45, BitVec.getLsbD_and, Bool.and_eq_true] at hi
      exact hi.2)⟩
  · rintro x hx ⟨r, hr, hs⟩
    obtain rfl : x = Sample.loud := by simpa using hx
    obtain rfl : Rule.compound true [.crit 1 .is 0#32] = r := by simpa [Sample.loud] using hr
    cases hs with
    | all _ h =>
      cases h _ List.mem_cons_self with
      | crit _ _ _ c hc h =>
        obtain rfl : Sample.criteria[1] = c := by simpa [Sample.mgr, Sample.st, Sample.criteria] using hc
        exact absurd h (by simp [VerbHolds, Sample.criteria])
  exact fun d' hd' hne _ => Sample.only_V d' hd' hne

end PF
