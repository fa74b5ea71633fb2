import Verif.Lemmas.ApplyExact
import Verif.Spec.SampleDomain

/-!
# Properties of the application of configurations: selection (C11), effect on the memory (C12),
applying again (C13), order of synchronisations (C15), sets of syncers (C16)
-/

namespace PF
open Spec

/-! ## C11: the first applicable configuration wins -/

/-- C11: after an application the domains are the same but for their last applied configuration,
which is the first one in configuration order that has a rule which is true; if there is none it
stays what it was, or is forgotten if the application is forced. -/
theorem C11_first_applicable_wins {env : Env} (wf : env.root.WF) {cs : List Criterion} {st st' : St}
    (h : Reachable env cs st) (force : Bool) {o : Out Unit} (ha : st.apply env.root env.hw force = (o, st')) :
    o = .ok () ∧ st'.domains.length = st.domains.length ∧
    ∀ (k : Nat) (d : Domain), st.domains[k]? = some d → ∃ l, st'.domains[k]? = some { d with last := l } ∧
      (∀ c, FirstQualifying st.criteria d.configs c → l = some c.id) ∧
      ((∀ c ∈ d.configs, ¬ Qualifies st.criteria c) → l = if force then none else d.last) := by
  obtain ⟨b, log, h1, _⟩ := (h.inv wf).apply_eq wf env.hw force
  rw [h1] at ha
  simp only [Prod.mk.injEq] at ha
  obtain ⟨rfl, rfl⟩ := ha
  refine ⟨rfl, by simp, ?_⟩
  intro k d hd
  have hdm : d ∈ st.domains := List.mem_of_getElem? hd
  obtain ⟨t1, t2⟩ := Domain.target_spec (force := force) ((h.inv wf).rules d hdm)
  refine ⟨(d.target st.criteria force).last, ?_, t1, ?_⟩
  · show (st.domains.map _)[k]? = _
    rw [List.getElem?_map, hd]
    rfl
  · intro hno
    apply t2
    rintro c ⟨pre, post, he, hq, _⟩
    exact hno c (by rw [he]; simp) hq

/-- C11: a configuration without a rule is never the one applied. -/
theorem C11_no_rule_never_selected {env : Env} (wf : env.root.WF) {cs : List Criterion} {st : St}
    (h : Reachable env cs st) (force : Bool) {d : Domain} (hd : d ∈ st.domains) {c : Config} (hc : c ∈ d.configs)
    (hr : c.rule = none) {k : Nat} (hk : st.domains[k]? = some d) (hl : d.last ≠ some c.id) :
    ∃ d', (st.apply env.root env.hw force).2.domains[k]? = some d' ∧ d'.last ≠ some c.id := by
  obtain ⟨_, _, h2⟩ := C11_first_applicable_wins wf h force (o := (st.apply env.root env.hw force).1)
    (st' := (st.apply env.root env.hw force).2) rfl
  obtain ⟨l, h3, h4, h5⟩ := h2 k d hk
  refine ⟨_, h3, ?_⟩
  by_cases hq : ∃ c, FirstQualifying st.criteria d.configs c
  · obtain ⟨c', hc'⟩ := hq
    show l ≠ _
    rw [h4 c' hc']
    intro he
    simp only [Option.some.injEq] at he
    obtain ⟨pre, post, hp, ⟨r, hr', _⟩, _⟩ := hc'
    have := nodup_map_inj ((h.inv wf).good d hd).ids (a := c') (by rw [hp]; simp) hc he
    subst this
    rw [hr] at hr'; simp at hr'
  · obtain ⟨o, ho, hx⟩ := findApplicable_spec ((h.inv wf).rules d hd)
    have : ∀ c ∈ d.configs, ¬ Qualifies st.criteria c := by
      have : ∀ (l : List Config), (∃ c ∈ l, Qualifies st.criteria c) → ∃ c, FirstQualifying st.criteria l c := by
        intro l
        induction l with
        | nil => rintro ⟨c, hc, _⟩; simp at hc
        | cons x xs ih =>
          rintro ⟨c, hc, hq⟩
          by_cases hqx : Qualifies st.criteria x
          · exact ⟨x, [], xs, rfl, hqx, by simp⟩
          · rcases List.mem_cons.1 hc with rfl | hc
            · exact absurd hq hqx
            · obtain ⟨y, pre, post, he, hy, hp⟩ := ih ⟨c, hc, hq⟩
              refine ⟨y, x :: pre, post, by rw [he]; rfl, hy, ?_⟩
              intro z hz
              rcases List.mem_cons.1 hz with rfl | hz
              · exact hqx
              · exact hp z hz
      intro c hc hcq
      exact hq (this _ ⟨c, hc, hcq⟩)
    show l ≠ _
    rw [h5 this]
    cases force
    · simpa using hl
    · simp

/-- C11: in one domain, nothing is written when no configuration qualifies, and a domain whose
selected configuration is the last applied one is left alone. -/
theorem C11_no_switch_no_change {env : Env} (wf : env.root.WF) {cs : List Criterion} {st : St} (h : Reachable env cs st)
    {d : Domain} (hd : d ∈ st.domains) (m : Mem) (hm : m.main.length = env.root.footprint) (ss : Option SyncerSet)
    (hn : ∀ c, FirstQualifying st.criteria d.configs c → d.last = some c.id) :
    d.apply env.root env.hw st.criteria false m ss = some (d, m, ss) := by
  by_cases hss : ss.isNone = d.seqAware
  · have hr := (h.inv wf).rules d hd
    have hsw : d.switchTo st.criteria false = none := by
      cases hs : d.switchTo st.criteria false with
      | none => rfl
      | some c =>
        obtain ⟨h1, h2⟩ := (Domain.switchTo_spec hr c).1 hs
        rcases h2 with h2 | h2
        · simp at h2
        · exact absurd (hn c h1) h2
    rw [(Domain.apply_spec wf env.hw false ((h.inv wf).good d hd) hr hm ss hss).1 hsw]
    obtain ⟨t1, t2⟩ := Domain.target_spec (force := false) hr
    have hl : (d.target st.criteria false).last = d.last := by
      by_cases hc : ∃ c, FirstQualifying st.criteria d.configs c
      · obtain ⟨c, hc⟩ := hc
        rw [t1 c hc, hn c hc]
      · rw [t2 (fun c hx => hc ⟨c, hx⟩)]; simp
    have : d.target st.criteria false = d := by
      show ({ d with last := (d.target st.criteria false).last } : Domain) = d
      rw [hl]
    rw [this]
  · exact Domain.apply_skip _ _ _ _ _ _ _ hss

/-- The sample: the first configuration of the first domain has a rule that is false, the second one
a rule that is true; it is selected. -/
example : Sample.st.domains[0]? = some Sample.domV ∧
    FirstQualifying Sample.st.criteria Sample.domV.configs Sample.calm ∧
    ((Sample.st.apply Sample.root Sample.env.hw false).2.domains.map (·.last)) = [some 2, some 4] := by
  refine ⟨rfl, ?_, by decide +kernel⟩
  obtain ⟨o, ho, hx⟩ := findApplicable_spec ((Sample.reachable.inv Sample.wf).rules Sample.domV (by simp [Sample.st]))
  have : findApplicable Sample.st.criteria Sample.domV.configs = some (some Sample.calm) := rfl
  rw [this] at ho
  simp only [Option.some.injEq] at ho
  exact (hx _).1 ho.symm

/-! ## C12: applying writes exactly the selected settings -/

/-- C12: after an application, every bit of an element of a domain that switched is the one stored in
the configuration it switched to (provided no other domain that switches has the bit too). -/
theorem C12_selected_settings_written {env : Env} (wf : env.root.WF) (fd : env.root.FieldsDisjoint)
    {cs : List Criterion} {st st' : St} (h : Reachable env cs st) (force : Bool) {o : Out Unit}
    (ha : st.apply env.root env.hw force = (o, st')) {d : Domain} (hd : d ∈ st.domains) {c : Config}
    (hs : Switches st.criteria force d c) {a : Area} (hca : a ∈ c.areas) {i : Nat} (hi : env.root.Owns a.elem i)
    (hother : ∀ d' ∈ st.domains, d' ≠ d → ∀ c', Switches st.criteria force d' c' → ∀ q ∈ d'.elems, ¬ env.root.Owns q i) :
    st'.mem.main.bit i = a.value env.root i :=
  (h.inv wf).apply_value wf fd force ha hd hs hca hi hother

/-- C12: a bit of the main blackboard that belongs to no element of a domain that switches is
unchanged; the size of the blackboard too. -/
theorem C12_nothing_else_written {env : Env} (wf : env.root.WF) {cs : List Criterion} {st st' : St}
    (h : Reachable env cs st) (force : Bool) {o : Out Unit} (ha : st.apply env.root env.hw force = (o, st')) :
    st'.mem.main.length = st.mem.main.length ∧
    ∀ i, (∀ d ∈ st.domains, ∀ c, Switches st.criteria force d c → ∀ q ∈ d.elems, ¬ env.root.Owns q i) →
      st'.mem.main.bit i = st.mem.main.bit i :=
  (h.inv wf).apply_frame wf force ha

/-- The sample: both domains switch, and the bytes of the label (4 to 6) belong to neither. -/
example : (Sample.st.apply Sample.root Sample.env.hw false).2.mem.main = [7, 0, 32, 0, 0, 0, 0, 0, 0, 1] := by
  decide +kernel

/-! ## C13: applying twice -/

/-- C13: when every domain already has its selected configuration applied, or none to select, and no
subsystem asks for a resynchronisation, an application changes nothing (but the modification counts of the criteria) and calls no syncer. -/
theorem C13_nothing_to_do {env : Env} (wf : env.root.WF) {cs : List Criterion} {st : St} (h : Reachable env cs st)
    (hn : ∀ d ∈ st.domains, ∀ c, FirstQualifying st.criteria d.configs c → d.last = some c.id)
    (hq : st.asked = []) :
    st.apply env.root env.hw false =
      (.ok (), { st with criteria := st.criteria.map Criterion.resetModified }) := by
  refine (h.inv wf).apply_idle wf env.hw ?_ hq
  rintro d hd c ⟨h1, h2⟩
  rcases h2 with h2 | h2
  · simp at h2
  · exact h2 (hn d hd c h1)

/-- C13: applying again right after an application leaves the whole state as it is: the blackboard,
the last applied configurations, and the calls of syncers. -/
theorem C13_apply_twice {env : Env} (wf : env.root.WF) {cs : List Criterion} {st st' : St} (h : Reachable env cs st)
    (force : Bool) (ha : st.apply env.root env.hw force = (.ok (), st')) :
    st'.apply env.root env.hw false = (.ok (), st') := by
  obtain ⟨b, log, h1, _⟩ := (h.inv wf).apply_eq wf env.hw force
  have hr : Reachable env cs st' := by
    have : ((DomOp.apply force).step env st).2 = st' := by simp only [DomOp.step, ha]
    rw [← this]
    exact h.step trivial (by simp only [DomOp.step, ha]; simp)
  rw [h1] at ha
  simp only [Prod.mk.injEq, true_and] at ha
  have hst : st'.criteria = st.criteria.map Criterion.resetModified ∧
      st'.domains = st.domains.map (Domain.target st.criteria force) := by rw [← ha]; exact ⟨rfl, rfl⟩
  have hid : st'.criteria.map Criterion.resetModified = st'.criteria := by
    rw [hst.1, List.map_map]
    exact List.map_congr_left (fun c _ => rfl)
  have := C13_nothing_to_do wf hr (by
    intro d' hd' c hc
    rw [hst.2] at hd'
    obtain ⟨d, hd, rfl⟩ := List.mem_map.1 hd'
    rw [hst.1] at hc
    have hc' : FirstQualifying st.criteria d.configs c := FirstQualifying.reset.1 hc
    exact (Domain.target_spec (force := force) ((h.inv wf).rules d hd)).1 c hc') (by rw [← ha])
  rw [this, hid]

example : ∃ st', Sample.st.apply Sample.env.root Sample.env.hw false = (.ok (), st') ∧ st'.mem.log.length = 2 :=
  ⟨_, rfl, by decide +kernel⟩

/-! ## C15: order of synchronisations -/

/-- C15: an application first writes the settings of all the sequence-unaware domains that switch, in
order, without synchronising; then calls, once each, the syncers that concern the elements of these
domains or a subsystem that asks for a resynchronisation, with the blackboard so obtained; then writes the settings of the sequence-aware domains that
switch, in order, element by element in the order of the configuration, calling the syncers of each
element right after it is written. -/
theorem C15_synchronisation_order {env : Env} (wf : env.root.WF) (nn : env.root.SyncersNotNested)
    {cs : List Criterion} {st st' : St} (h : Reachable env cs st) (force : Bool) {o : Out Unit}
    (ha : st.apply env.root env.hw force = (o, st')) :
    ∃ (unaware aware : List Area) (b1 : Board) (ss : SyncerSet) (ev : List SyncEvent),
      Plan st.criteria force false st.domains unaware ∧ WrittenAll env.root unaware st.mem.main b1 ∧
      (∀ x, x ∈ ss ↔ (∃ i ∈ st.asked, i < env.root.children.length ∧ Concerns env.root [i] x) ∨
        ∃ d ∈ st.domains, d.seqAware = false ∧ (∃ c, Switches st.criteria force d c) ∧
          ∃ p ∈ d.elems, Concerns env.root p x) ∧ ss.Nodup ∧
      Plan st.criteria force true st.domains aware ∧ ElementByElement env.root aware b1 ev st'.mem.main ∧
      st'.mem.log = st.mem.log ++ ss.map (fun x => ⟨x, b1⟩) ++ ev := by
  have inv := h.inv wf
  obtain ⟨as, b1, ss, as', ev, b2, h1, h2, h3, h4, h5, h6, h7⟩ :=
    applyDomains_trace wf env.hw force inv.good inv.rules inv.main (resyncSet_sorted env.root st.asked)
  simp only [St.apply, h1, Prod.mk.injEq] at ha
  obtain ⟨rfl, rfl⟩ := ha
  refine ⟨as, as', b1, ss, ev, h2, h3, ?_, h5, h6, h7, rfl⟩
  intro x
  rw [h4, mem_resyncSet_iff nn]
  refine or_congr Iff.rfl ?_
  constructor
  · rintro ⟨d, hd, h8, h9, h10⟩; exact ⟨d, hd, h8, h9, (h.syncSet_iff wf nn hd x).1 h10⟩
  · rintro ⟨d, hd, h8, h9, h10⟩; exact ⟨d, hd, h8, h9, (h.syncSet_iff wf nn hd x).2 h10⟩

/-- The sample: syncer 1 of the sequence-unaware domain is called when only the volume is written,
syncer 2 of the sequence-aware one at the end. -/
example : (Sample.st.apply Sample.root Sample.env.hw false).2.mem.log =
    [⟨1, [7, 0, 0, 0, 0, 0, 0, 0, 0, 0]⟩, ⟨2, [7, 0, 32, 0, 0, 0, 0, 0, 0, 1]⟩] := by decide +kernel

/-! ## C16: sets of syncers -/

/-- C16: a set of syncers built by adding syncers holds each one once. -/
theorem C16_each_once (a b : SyncerSet) (ha : a.Pairwise (· < ·)) :
    (a.union b).Pairwise (· < ·) ∧ (a.union b).Nodup ∧ ∀ x, x ∈ a.union b ↔ x ∈ a ∨ x ∈ b :=
  ⟨union_sorted ha, sorted_nodup (union_sorted ha), fun _ => mem_union⟩

/-- C16: synchronising a set calls every syncer of it, once each and with the same blackboard,
whatever the results. -/
theorem C16_all_called (hw : Hardware) (main : Board) (ss : SyncerSet) (log : List SyncEvent) :
    (syncAll hw main ss log).1 = log ++ ss.map (fun x => ⟨x, main⟩) := syncAll_log hw main ss log

/-- C16: the errors are those of the failing syncers, in order. -/
theorem C16_errors (hw : Hardware) (main : Board) (ss : SyncerSet) (log : List SyncEvent) :
    (syncAll hw main ss log).2 = (List.range ss.length).filterMap (fun k =>
      (ss[k]?).bind fun x => hw (log ++ (ss.take k).map (fun x => ⟨x, main⟩)) x main) := syncAll_errors hw main ss log

/-- C16: it succeeds (no error) iff every syncer succeeds. -/
theorem C16_success_iff (hw : Hardware) (main : Board) (ss : SyncerSet) (log : List SyncEvent) :
    (syncAll hw main ss log).2 = [] ↔
      ∀ (k : Nat) (x : Nat), ss[k]? = some x → hw (log ++ (ss.take k).map (fun x => ⟨x, main⟩)) x main = none := by
  rw [syncAll_errors, List.filterMap_eq_nil_iff]
  constructor
  · intro h k x hx
    have := h k (List.mem_range.2 (List.getElem?_eq_some_iff.1 hx).1)
    rw [hx] at this
    exact this
  · intro h k hk
    have := List.mem_range.1 hk
    rw [List.getElem?_eq_getElem this]
    exact h k _ (List.getElem?_eq_getElem this)

/-- The second of three syncers fails. -/
example : syncAll (fun _ x _ => if x = 2 then some (s "no") else none) [1#8] [1, 2, 3] [] =
    ([⟨1, [1]⟩, ⟨2, [1]⟩, ⟨3, [1]⟩], [s "no"]) := by decide

end PF
