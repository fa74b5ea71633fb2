import Verif.Props.Backup
import Verif.Props.Framework
import Verif.Lemmas.Restart
import Verif.Lemmas.SameDocument
import Verif.Spec.Restart

/-!
# C85: settings across restarts
-/

namespace PF
open Spec

theorem Spec.SameDefinitions.names {cs cs' : List Criterion} (h : SameDefinitions cs cs') : SameNames cs cs' := by
  intro i
  cases hi : cs[i]? with
  | none =>
    have : cs'[i]? = none := by
      rw [List.getElem?_eq_none_iff] at hi ⊢
      rw [← h.1]; exact hi
    rw [this]
  | some c =>
    obtain ⟨c', hc', hn, ht⟩ := h.get hi
    rw [hc', Option.map_some, Option.map_some, hn, ht]

/-- The two ways to say that domains are alike, after an application: it only remembers what was applied. -/
theorem alike_target {R : Config → Config → Prop} {l l' : List Domain} {cs : List Criterion} {force : Bool}
    (h : Spec.Alike (SameDomain R) l l') : Spec.Alike (SameDomain R) l (l'.map (Domain.target cs force)) := by
  refine ⟨by rw [List.length_map]; exact h.1, fun k d d' hd hd' => ?_⟩
  rw [List.getElem?_map] at hd'
  obtain ⟨d0, hd0, rfl⟩ := Option.map_eq_some_iff.1 hd'
  exact h.2 k d d0 hd hd0

/-- What a start with exported settings goes through. -/
theorem restart_mid {e e' : MEnv} (wf : e.env.root.WF) (fd : e.env.root.FieldsDisjoint) (g : e.env.root.GoodNames)
    (hn : e.env.root.name ≠ []) (hrd : ReadsDecimals e.env.rd) (hroot : e'.env.root = e.env.root) (hrd' : e'.env.rd = e.env.rd)
    {cs cs' : List Criterion} {m : Mgr} (hm : MReachable e cs m) (hst : ∀ d ∈ m.st.domains, DomainStorable e m d)
    (hcs : SameDefinitions cs cs') (fail : Bool) (back : BackSync) :
    ∃ doc, m.st.exportDomains e.env.root m.ctx true = .ok doc ∧ (Settings.doc doc).Regular e.env.root ∧
      (Mgr.start e' fail (.doc doc) back cs').1 = .ok () ∧
      ∃ mid : St, mid.Inv e.env.root ∧ mid.criteria = cs' ∧
        Spec.Alike (SameDomain (SameConfig e.env.root)) m.st.domains mid.domains ∧
        (Mgr.start e' fail (.doc doc) back cs').2.st = (mid.apply e.env.root e'.env.hw true).2 := by
  have trip := fun (st2 : St) (h2 : SameNames cs st2.criteria) (i2 : st2.Inv e.env.root) =>
    round_trip_into (env := e.env) wf fd g hn hrd hm.reachable h2 i2 true m.ctx (fun hr _ d hd => (hst d hd).raw hr)
      (fun d hd => (hst d hd).names)
      (fun d hd => (hst d hd).rules) (fun _ d hd => (hst d hd).settings)
  have hmb : e.env.root.mainBoard.length = e.env.root.footprint := by simp [Elem.mainBoard]
  have hblank : St.blank e.env.root cs' e.env.root.mainBoard = St.initial e.env.root cs' := rfl
  obtain ⟨doc, hdoc, hreg, hok, _⟩ := trip (St.blank e.env.root cs' e.env.root.mainBoard) hcs.names (St.blank_inv hmb)
  have hstart : (Mgr.start e' fail (.doc doc) back cs').1 = .ok () := by
    show (St.start e'.env fail (.doc doc) back cs').1 = .ok ()
    rw [St.start_outcome (by rw [hroot]; exact wf)]
    rw [hblank] at hok
    simp only [DomOp.step] at hok
    simp only [hroot, hrd', hok]
  refine ⟨doc, hdoc, hreg, hstart, ?_⟩
  obtain ⟨st1, main, mid, _, hml, _, _, _, _, _, k2, k3, k4, _, _, k5⟩ :=
    St.start_mid (env := e'.env) (by rw [hroot]; exact wf) (back := back) (failOnError := fail) (settings := .doc doc) (cs := cs') hstart
  rw [hroot] at hml k3 k4 k5
  obtain ⟨doc', hdoc', _, hok', _, hal⟩ := trip (St.blank e.env.root cs' main) hcs.names (St.blank_inv hml)
  obtain rfl : doc = doc' := by simpa using hdoc.symm.trans hdoc'
  refine ⟨mid, k3, k2, ?_, ?_⟩
  · rcases k5 with ⟨x, hx, himp⟩ | ⟨himp, _⟩
    · obtain rfl : doc = x := by simpa using hx
      have := hal rfl
      simp only [DomOp.step] at this
      rw [hrd'] at himp
      rwa [himp] at this
    · have := himp doc rfl
      simp only [DomOp.step] at hok'
      rw [hrd', hok'] at this
      exact absurd this (by simp)
  · show (St.start e'.env fail (.doc doc) back cs').2 = _
    rw [k4]

/-- **C85 (restart).**  The domains of a system, after whatever history, are exported with their settings.  A system with the
same structure and the same criteria, in whatever states, that is started with that document as its settings, starts,
and has the same domains with the same settings; whatever its hardware, whatever it does at a failure, and whatever back
synchronisation it makes. -/
theorem C85_restart_partial {e e' : MEnv} (wf : e.env.root.WF) (fd : e.env.root.FieldsDisjoint) (g : e.env.root.GoodNames)
    (hn : e.env.root.name ≠ []) (hrd : ReadsDecimals e.env.rd) (hroot : e'.env.root = e.env.root) (hrd' : e'.env.rd = e.env.rd)
    {cs cs' : List Criterion} {m : Mgr} (hm : MReachable e cs m) (hst : ∀ d ∈ m.st.domains, DomainStorable e m d)
    (hcs : SameDefinitions cs cs') (fail : Bool) (back : BackSync) :
    ∃ doc, m.st.exportDomains e.env.root m.ctx true = .ok doc ∧ (Mgr.start e' fail (.doc doc) back cs').1 = .ok () ∧
      Spec.Alike (SameDomain (SameConfig e.env.root)) m.st.domains (Mgr.start e' fail (.doc doc) back cs').2.st.domains ∧
      MReachable e' cs' (Mgr.start e' fail (.doc doc) back cs').2 := by
  obtain ⟨doc, hdoc, hreg, hok, mid, hinv, hc, hal, hmid⟩ := restart_mid wf fd g hn hrd hroot hrd' hm hst hcs fail back
  refine ⟨doc, hdoc, hok, ?_, C66_manager (by rw [hroot]; exact wf) (by rw [hroot]; exact hreg) hok⟩
  obtain ⟨b, log, ha, _⟩ := hinv.apply_eq wf e'.env.hw true
  rw [hmid, ha]
  exact alike_target hal

/-- **C85 (behaviour).**  In a system that is started in that way, each parameter of a domain that was exported has the value
that it had in the settings of the configuration that is the first to qualify with the states the criteria have at the
start; other domains to which the parameter belongs have no say if none of their configurations qualifies. -/
theorem C85_values_partial {e e' : MEnv} (wf : e.env.root.WF) (fd : e.env.root.FieldsDisjoint) (g : e.env.root.GoodNames)
    (hn : e.env.root.name ≠ []) (hrd : ReadsDecimals e.env.rd) (hroot : e'.env.root = e.env.root) (hrd' : e'.env.rd = e.env.rd)
    {cs cs' : List Criterion} {m : Mgr} (hm : MReachable e cs m) (hst : ∀ d ∈ m.st.domains, DomainStorable e m d)
    (hcs : SameDefinitions cs cs') (fail : Bool) (back : BackSync)
    {doc : Xml} (hdoc : m.st.exportDomains e.env.root m.ctx true = .ok doc) {m' : Mgr}
    (hm' : m' = (Mgr.start e' fail (.doc doc) back cs').2) (hs : StringsEnd e.env.root m'.st) :
    ∀ d ∈ m.st.domains, ∀ c, FirstQualifying cs' d.configs c → ∀ a ∈ c.areas, ∀ path q f base,
      e.env.root.locate path = some q → a.elem <+: q → e.env.root.at? q = some f → f.kind.isParameter = true →
      e.env.root.offset 0 a.elem = some base →
      (∀ d' ∈ m.st.domains, d' ≠ d → (∃ c' ∈ d'.configs, Qualifies cs' c') → ∀ x ∈ d'.elems, ∀ i,
        e.env.root.Owns q i → ¬ e.env.root.Owns x i) →
      ∀ ctx, Elem.getText ctx e.env.root 0 m'.st.mem.main path = Elem.getText ctx e.env.root base a.board path := by
  obtain ⟨doc', hdoc', hreg, hok, mid, hinv, hc, hal, hmid⟩ := restart_mid wf fd g hn hrd hroot hrd' hm hst hcs fail back
  obtain rfl : doc = doc' := by simpa using hdoc.symm.trans hdoc'
  rw [← hm'] at hmid
  obtain ⟨b, log, ha, hb⟩ := hinv.apply_eq wf e'.env.hw true
  have hdom : m'.st.domains = mid.domains.map (Domain.target mid.criteria true) := by rw [hmid, ha]
  have hmain : m'.st.mem.main.length = e.env.root.footprint := by rw [hmid, ha]; exact hb
  refine restored_text wf (hm.reachable.inv wf) (fun d hd c hcd => ?_) hal hmain fun k d hd c hq a hca i hi hother => ?_
  · exact hs.settings (Domain.target mid.criteria true d) (by rw [hdom]; exact List.mem_map.2 ⟨d, hd, rfl⟩) c hcd
  · rw [hmid]
    refine St.Inv.apply_value (env := ⟨e.env.root, e'.env.hw, e'.env.rd⟩) wf fd hinv true (o := (mid.apply e.env.root e'.env.hw true).1)
      (st' := (mid.apply e.env.root e'.env.hw true).2) rfl (List.mem_of_getElem? hd) ⟨by rw [hc]; exact hq, .inl rfl⟩ hca hi ?_
    intro d' hd' hne c' hs' q hq'
    obtain ⟨⟨pre, post, h1, h2, _⟩, _⟩ := hs'
    refine hother d' hd' hne ⟨c', by rw [h1]; simp, ?_⟩ q hq'
    rw [← hc]
    exact h2

/-- **C85 (same document).**  And if the domains are exported again, in whatever form, the documents are the same. -/
theorem C85_same_document_partial {e e' : MEnv} (wf : e.env.root.WF) (fd : e.env.root.FieldsDisjoint) (g : e.env.root.GoodNames)
    (hn : e.env.root.name ≠ []) (hrd : ReadsDecimals e.env.rd) (hroot : e'.env.root = e.env.root) (hrd' : e'.env.rd = e.env.rd)
    {cs cs' : List Criterion} {m : Mgr} (hm : MReachable e cs m) (hst : ∀ d ∈ m.st.domains, DomainStorable e m d)
    (hcs : SameDefinitions cs cs') (fail : Bool) (back : BackSync)
    {doc : Xml} (hdoc : m.st.exportDomains e.env.root m.ctx true = .ok doc) (ctx : Ctx) (withSettings : Bool) :
    (Mgr.start e' fail (.doc doc) back cs').2.st.exportDomains e.env.root ctx withSettings =
      m.st.exportDomains e.env.root ctx withSettings := by
  obtain ⟨doc', hdoc', hok, hal, hr⟩ := C85_restart_partial wf fd g hn hrd hroot hrd' hm hst hcs fail back
  obtain rfl : doc = doc' := by simpa using hdoc.symm.trans hdoc'
  exact exportDomains_same ((hm.reachable.sameNames.symm.trans hcs.names).trans hr.reachable.sameNames) hal

/-- **C85 (strings).**  With subsystems that have no hardware, the strings of the started system end in their space. -/
theorem C85_strings {e : MEnv} (wf : e.env.root.WF) (fd : e.env.root.FieldsDisjoint) {fail : Bool} {settings : Settings}
    {cs : List Criterion} (hok : (Mgr.start e fail settings .simulated cs).1 = .ok ()) :
    StringsEnd e.env.root (Mgr.start e fail settings .simulated cs).2.st :=
  (start_ended wf fd hok).ends

/-- **C85 (files).**  The same for a start from files: if the settings file the configuration names holds the exported document,
the system that starts has the domains that were exported, and exports them to the same document. -/
theorem C85_files_partial {e : MEnv} (wf : e.env.root.WF) (fd : e.env.root.FieldsDisjoint) (g : e.env.root.GoodNames)
    (hn : e.env.root.name ≠ []) (hrd : ReadsDecimals e.env.rd) {cs cs' : List Criterion} {m : Mgr} (hm : MReachable e cs m)
    (hst : ∀ d ∈ m.st.domains, DomainStorable e m d) (hcs : SameDefinitions cs cs')
    {doc : Xml} (hdoc : m.st.exportDomains e.env.root m.ctx true = .ok doc)
    {w : World} {pol : Policies} {uri : Str} {r : Started} {cfg : SXml} {ps : PluginState}
    (h : Starts w pol uri cs' r cfg ps (.doc doc)) (hroot : r.env.env.root = e.env.root) (hrd' : w.rd = e.env.rd) :
    Spec.Alike (SameDomain (SameConfig e.env.root)) m.st.domains r.mgr.st.domains ∧ MReachable r.env cs' r.mgr ∧
      (∀ ctx ws, r.mgr.st.exportDomains e.env.root ctx ws = m.st.exportDomains e.env.root ctx ws) ∧
      (w.back = .simulated → StringsEnd e.env.root r.mgr.st) := by
  have hrd2 : r.env.env.rd = e.env.rd := h.world.2.1.trans hrd'
  obtain ⟨doc', hdoc', hok, hal, hr⟩ :=
    C85_restart_partial wf fd g hn hrd hroot hrd2 hm hst hcs pol.failOnSettings w.back
  obtain rfl : doc = doc' := by simpa using hdoc.symm.trans hdoc'
  have hman := h.manager
  have h2 : (Mgr.start r.env pol.failOnSettings (.doc doc) w.back cs').2 = r.mgr := by rw [hman]
  rw [h2] at hal hr
  refine ⟨hal, hr, fun ctx ws => ?_, fun hb => ?_⟩
  · rw [← h2]
    exact C85_same_document_partial wf fd g hn hrd hroot hrd2 hm hst hcs _ _ hdoc ctx ws
  · rw [← h2, ← hroot, hb]
    rw [hb] at hok
    exact C85_strings (by rw [hroot]; exact wf) (by rw [hroot]; exact fd) hok

/-- The criteria of the sample, with no device and in no call. -/
def Sample.quiet : List Criterion := Sample.criteria.map fun c => { c with state := 0#32 }

theorem Sample.quiet_same : SameDefinitions Sample.criteria Sample.quiet := by
  refine ⟨rfl, fun k c c' h h' => ?_⟩
  rw [Sample.quiet, List.getElem?_map, h] at h'
  obtain rfl := Option.some.inj h'
  exact ⟨rfl, rfl⟩

/-- The domains of the sample are exported, and a system is started with them while there is no call: it has the same domains,
and the volume is that of `Loud`, although it was 0 when they were exported. -/
example : ∃ doc, Sample.mgr.st.exportDomains Sample.root Sample.mgr.ctx true = .ok doc ∧
    (Mgr.start Sample.exactMenv true (.doc doc) .simulated Sample.quiet).1 = .ok () ∧
    Spec.Alike (SameDomain (SameConfig Sample.root)) [Sample.domV, Sample.domQ]
      (Mgr.start Sample.exactMenv true (.doc doc) .simulated Sample.quiet).2.st.domains ∧
    Elem.getText ⟨false, false⟩ Sample.root 0 Sample.mgr.st.mem.main (s "/Sys/sub/comp/vol") = .ok (s "0") ∧
    Elem.getText ⟨false, false⟩ Sample.root 0 (Mgr.start Sample.exactMenv true (.doc doc) .simulated Sample.quiet).2.st.mem.main
      (s "/Sys/sub/comp/vol") = .ok (s "90") := by
  obtain ⟨doc, hdoc, hok, hal, -⟩ := C85_restart_partial (e := Sample.exactMenv) (e' := Sample.exactMenv) Sample.wf
    Sample.fieldsDisjoint Sample.goodNames (by decide) (Classical.choose_spec ReadsDecimals.exists) rfl rfl
    Sample.exact_mreachable (fun d hd => Sample.storable hd) Sample.quiet_same true .simulated
  refine ⟨doc, hdoc, hok, hal, by decide +kernel, ?_⟩
  refine (C85_values_partial (e := Sample.exactMenv) (e' := Sample.exactMenv) Sample.wf
    Sample.fieldsDisjoint Sample.goodNames (by decide) (Classical.choose_spec ReadsDecimals.exists) rfl rfl
    Sample.exact_mreachable (fun d hd => Sample.storable hd) Sample.quiet_same true .simulated hdoc rfl
    (C85_strings Sample.wf Sample.fieldsDisjoint hok) Sample.domV (by decide +kernel) Sample.loud
    ⟨[], [Sample.calm], rfl, ?_, by simp⟩ _ List.mem_cons_self
    (s "/Sys/sub/comp/vol") [0, 0, 0] _ _ (by decide +kernel) ⟨[], rfl⟩ rfl rfl rfl
    (fun d' hd' hne _ => Sample.only_V d' hd' hne) ⟨false, false⟩).trans (by decide +kernel)
  exact ⟨_, rfl, .all _ fun r hr => by
    obtain rfl : r = .crit 1 .is 0#32 := by simpa using hr
    exact .crit _ _ _ _ rfl rfl⟩

end PF
