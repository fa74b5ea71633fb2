import Verif.Lemmas.AskedFrame
import Verif.Lemmas.Independence
import Verif.Lemmas.Plan
import Verif.Props.Manager
import Verif.Props.Start

/-! # Resynchronisation of subsystems (C67); the values do not depend on the synchronisation (C68) -/

namespace PF
open Spec

theorem Spec.Runs.reachable {e : MEnv} {cs : List Criterion} {ops : List MOp} {m : Mgr} (h : MReachable e cs m)
    (hr : Runs e ops m) : MReachable e cs (after e ops m) := by
  induction ops generalizing m with
  | nil => exact h
  | cons op ops ih => exact ih (h.step hr.1 hr.2.1) hr.2.2

theorem waits_cons {e : MEnv} {m : Mgr} {op : MOp} {ops : List MOp} {i : Nat} :
    Waits e m (op :: ops) i ↔ (op = .askResync i ∧ NoApplication e ops (op.step e m).2) ∨ Waits e (op.step e m).2 ops i := by
  constructor
  · rintro ⟨pre, post, h1, h2⟩
    cases pre with
    | nil =>
      simp only [List.nil_append, List.cons.injEq] at h1
      obtain ⟨rfl, rfl⟩ := h1
      exact .inl ⟨rfl, h2⟩
    | cons x pre =>
      simp only [List.cons_append, List.cons.injEq] at h1
      obtain ⟨rfl, rfl⟩ := h1
      exact .inr ⟨pre, post, rfl, h2⟩
  · rintro (⟨rfl, h⟩ | ⟨pre, post, rfl, h⟩)
    · exact ⟨[], ops, rfl, h⟩
    · exact ⟨op :: pre, post, rfl, h⟩

theorem Applies.asked {e : MEnv} {m : Mgr} {op : MOp} (h : Applies m op) (ho : (op.step e m).1 ≠ .abort) :
    (op.step e m).2.st.asked = [] := by
  rcases h with ⟨rfl, ht⟩ | ⟨rfl, ht⟩
  · simp only [MOp.step, Mgr.applyConfigurations, ht, Bool.not_false, if_true] at ho ⊢
    rcases Mgr.apply_asked e m false with ⟨_, h⟩ | ⟨h, _⟩
    · exact h
    · exact absurd h ho
  · simp only [MOp.step, Mgr.setTuningMode, ht, Bool.false_eq_true, if_false, Bool.false_and, Bool.not_false, if_true] at ho ⊢
    rcases hr : m.run e (.apply true) with ⟨o, m'⟩
    have := Mgr.apply_asked e m true
    rw [hr] at this ho
    rcases this with ⟨h1, h2⟩ | ⟨h1, h2⟩
    · simp only at h1; subst h1; exact h2
    · simp only at h1; subst h1; exact absurd rfl ho

/-- The subsystems whose requests wait after a history. -/
theorem after_asked {e : MEnv} {ops : List MOp} {m : Mgr} (hr : Runs e ops m) (i : Nat) :
    i ∈ (after e ops m).st.asked ↔ (i ∈ m.st.asked ∧ NoApplication e ops m) ∨ Waits e m ops i := by
  induction ops generalizing m with
  | nil =>
    have : ¬ Waits e m [] i := by rintro ⟨pre, post, h, _⟩; simp at h
    simp [after, NoApplication, this]
  | cons op ops ih =>
    rw [after, ih hr.2.2, waits_cons, NoApplication]
    rcases MOp.step_asked e m op with h | ⟨j, rfl, h⟩ | ⟨_, ha, h⟩
    · by_cases hp : Applies m op
      · have h0 := Applies.asked (e := e) hp hr.2.1
        rw [h0] at h ⊢
        rw [← h]
        simp only [List.not_mem_nil, false_and, false_or]
        constructor
        · exact .inr
        · rintro (⟨rfl, hn⟩ | hw)
          · rcases hp with ⟨hx, _⟩ | ⟨hx, _⟩ <;> cases hx
          · exact hw
      · rw [h]
        by_cases hop : op = .askResync i
        · subst hop
          have : ((MOp.askResync i).step e m).2.st.asked = i :: m.st.asked := rfl
          rw [this] at h
          have := congrArg List.length h
          simp at this
        · simp [hp, hop]
    · rw [h]
      have hp : ¬ Applies m (.askResync j) := by rintro (⟨hx, _⟩ | ⟨hx, _⟩) <;> cases hx
      simp only [List.mem_cons, MOp.askResync.injEq, hp, not_false_eq_true, true_and]
      constructor
      · rintro (⟨rfl | hi, hn⟩ | hw)
        · exact .inr (.inl ⟨rfl, hn⟩)
        · exact .inl ⟨hi, hn⟩
        · exact .inr (.inr hw)
      · rintro (⟨hi, hn⟩ | ⟨rfl, hn⟩ | hw)
        · exact .inl ⟨.inr hi, hn⟩
        · exact .inl ⟨.inl rfl, hn⟩
        · exact .inr hw
    · rw [h]
      have hp : Applies m op := ha
      have hop : op ≠ .askResync i := by rcases ha with ⟨rfl, _⟩ | ⟨rfl, _⟩ <;> simp
      simp [hp, hop]

/-- The state of the domains after an operation that applies the configurations: forced at the end of
tuning mode. -/
theorem Applies.st {e : MEnv} {m : Mgr} {op : MOp} (h : Applies m op) (ho : (op.step e m).1 ≠ .abort) :
    (m.st.apply e.env.root e.env.hw m.tuning) = (.ok (), (op.step e m).2.st) := by
  rcases h with ⟨rfl, ht⟩ | ⟨rfl, ht⟩
  · simp only [MOp.step, Mgr.applyConfigurations, ht, Bool.not_false, if_true] at ho ⊢
    refine Prod.ext ?_ rfl
    rcases St.apply_out e.env.root e.env.hw false m.st with h | h
    · exact h
    · exact absurd h ho
  · simp only [MOp.step, Mgr.setTuningMode, ht, Bool.false_eq_true, if_false, Bool.false_and, Bool.not_false, if_true] at ho ⊢
    have hx : m.run e (.apply true) = ((m.st.apply e.env.root e.env.hw true).1, { m with st := (m.st.apply e.env.root e.env.hw true).2 }) := rfl
    rw [hx] at ho ⊢
    rcases h1 : m.st.apply e.env.root e.env.hw true with ⟨o, st'⟩
    have := St.apply_out e.env.root e.env.hw true m.st
    rw [h1] at this ho
    rcases this with h | h
    · simp only at h; subst h; rfl
    · simp only at h; subst h; exact absurd rfl ho

/-! ## C67: subsystems that ask for a resynchronisation -/

/-- C67: from a manager where no request waits, after any history of operations, an application of the
configurations calls — once each, after the settings of the sequence-unaware domains that switch are written and
before those of the sequence-aware ones — the syncers of the elements of the sequence-unaware domains that switch
and those of every subsystem that asked for a resynchronisation since the last application, whether or not a
configuration is selected; and none else but those of the elements of the sequence-aware domains that switch. -/
theorem C67_resynchronised {e : MEnv} (wf : e.env.root.WF) (nn : e.env.root.SyncersNotNested) {cs : List Criterion}
    {m : Mgr} (h : MReachable e cs m) (h0 : m.st.asked = []) {ops : List MOp} (hr : Runs e ops m) {op : MOp}
    (ha : Applies (after e ops m) op) (ho : (op.step e (after e ops m)).1 ≠ .abort) :
    let st := (after e ops m).st
    let st' := (op.step e (after e ops m)).2.st
    let force := (after e ops m).tuning
    ∃ (unaware aware : List Area) (b1 : Board) (ss : SyncerSet) (ev : List SyncEvent),
      Plan st.criteria force false st.domains unaware ∧ WrittenAll e.env.root unaware st.mem.main b1 ∧
      (∀ x, x ∈ ss ↔ (∃ i, Waits e m ops i ∧ i < e.env.root.children.length ∧ Concerns e.env.root [i] x) ∨
        ∃ d ∈ st.domains, d.seqAware = false ∧ (∃ c, Switches st.criteria force d c) ∧
          ∃ p ∈ d.elems, Concerns e.env.root p x) ∧ ss.Nodup ∧
      Plan st.criteria force true st.domains aware ∧ ElementByElement e.env.root aware b1 ev st'.mem.main ∧
      st'.mem.log = st.mem.log ++ ss.map (fun x => ⟨x, b1⟩) ++ ev := by
  intro st st' force
  obtain ⟨u, a, b1, ss, ev, h1, h2, h3, h4, h5, h6, h7⟩ :=
    C15_synchronisation_order wf nn (hr.reachable h).reachable force (Applies.st ha ho)
  refine ⟨u, a, b1, ss, ev, h1, h2, ?_, h4, h5, h6, h7⟩
  intro x
  rw [h3]
  refine or_congr ?_ Iff.rfl
  refine exists_congr fun i => and_congr ?_ Iff.rfl
  rw [after_asked hr, h0]
  simp

/-- C67: no request waits after an application of the configurations, so each is answered once. -/
theorem C67_answered_once {e : MEnv} {m : Mgr} {ops : List MOp} {op : MOp}
    (hr : Runs e (ops ++ [op]) m) (ha : Applies (after e ops m) op) : ∀ i, ¬ Waits e m (ops ++ [op]) i := by
  intro i hw
  have := (after_asked hr i).2 (.inr hw)
  have hap : ∀ (ops : List MOp) (m : Mgr), after e (ops ++ [op]) m = (op.step e (after e ops m)).2 := by
    intro ops
    induction ops with
    | nil => intro m; rfl
    | cons o ops ih => intro m; exact ih _
  have hna : ∀ (ops : List MOp) (m : Mgr), Runs e (ops ++ [op]) m → (op.step e (after e ops m)).1 ≠ .abort := by
    intro ops
    induction ops with
    | nil => intro m h; exact h.2.1
    | cons o ops ih => intro m h; exact ih _ h.2.2
  rw [hap, Applies.asked ha (hna ops m hr)] at this
  simp at this

/-- C67: a request alone sends nothing and changes no value. -/
theorem C67_request_only (e : MEnv) (m : Mgr) (i : Nat) :
    ((MOp.askResync i).step e m).1 = .ok () ∧ ((MOp.askResync i).step e m).2.st.mem = m.st.mem ∧
    SameValues m ((MOp.askResync i).step e m).2 :=
  ⟨rfl, rfl, ⟨rfl, rfl, rfl, rfl, rfl, rfl, rfl, rfl⟩⟩

/-- C67: an application that has no configuration to switch to sends the subsystems that asked what the
main blackboard holds, and changes no value. -/
theorem C67_nothing_else {e : MEnv} (wf : e.env.root.WF) (nn : e.env.root.SyncersNotNested) {cs : List Criterion}
    {m : Mgr} (h : MReachable e cs m) (h0 : m.st.asked = []) {ops : List MOp} (hr : Runs e ops m)
    (ht : (after e ops m).tuning = false)
    (hn : ∀ d ∈ (after e ops m).st.domains, ∀ c, ¬ Switches (after e ops m).st.criteria false d c) :
    let m1 := after e ops m
    let m2 := (MOp.applyConfigurations.step e m1).2
    ∃ ss : SyncerSet,
      (∀ x, x ∈ ss ↔ ∃ i, Waits e m ops i ∧ i < e.env.root.children.length ∧ Concerns e.env.root [i] x) ∧ ss.Nodup ∧
      m2.st.mem = ⟨m1.st.mem.main, m1.st.mem.log ++ ss.map (fun x => ⟨x, m1.st.mem.main⟩)⟩ ∧
      m2.st.domains = m1.st.domains := by
  intro m1 m2
  obtain ⟨ss, h1, h2, h3⟩ := ((hr.reachable h).reachable.inv wf).apply_idle_asked wf e.env.hw hn
  refine ⟨ss, ?_, h2, ?_, ?_⟩
  · intro x
    rw [h1, mem_resyncSet_iff nn]
    refine exists_congr fun i => and_congr ?_ Iff.rfl
    rw [after_asked hr, h0]
    simp
  · show (MOp.applyConfigurations.step e m1).2.st.mem = _
    simp only [MOp.step, Mgr.applyConfigurations, show m1.tuning = false from ht, Bool.not_false, if_true, Mgr.run,
      DomOp.step]
    rw [show m1.st.apply e.env.root e.env.hw false = _ from h3]
  · show (MOp.applyConfigurations.step e m1).2.st.domains = _
    simp only [MOp.step, Mgr.applyConfigurations, show m1.tuning = false from ht, Bool.not_false, if_true, Mgr.run,
      DomOp.step]
    rw [show m1.st.apply e.env.root e.env.hw false = _ from h3]

/-- The sample after its configurations are applied: the first application has nothing to do, then the
subsystem asks twice, a request of a subsystem that does not exist and a refused creation follow, and
the next application calls its three syncers. -/
example :
    let ops : List MOp := [.applyConfigurations, .askResync 0, .createDomain (s "X"), .askResync 0, .askResync 5]
    Sample.idle.st.asked = [] ∧ Runs Sample.menv ops Sample.idle ∧ Waits Sample.menv Sample.idle ops 0 ∧
    Applies (after Sample.menv ops Sample.idle) .applyConfigurations ∧
    (∀ d ∈ (after Sample.menv ops Sample.idle).st.domains, ∀ c,
      ¬ Switches (after Sample.menv ops Sample.idle).st.criteria false d c) ∧
    (MOp.applyConfigurations.step Sample.menv (after Sample.menv ops Sample.idle)).2.st.mem.log =
      Sample.idle.st.mem.log ++ [⟨1, Sample.idle.st.mem.main⟩, ⟨2, Sample.idle.st.mem.main⟩, ⟨3, Sample.idle.st.mem.main⟩] := by
  intro ops
  have hr : Runs Sample.menv ops Sample.idle := by
    refine ⟨trivial, by decide +kernel, trivial, by decide +kernel, trivial, by decide +kernel, trivial, by decide +kernel,
      trivial, by decide +kernel, trivial⟩
  refine ⟨by decide +kernel, hr, ?_, .inl ⟨rfl, by decide +kernel⟩, ?_, by decide +kernel⟩
  · exact ⟨[.applyConfigurations, .askResync 0, .createDomain (s "X")], [.askResync 5], rfl, by
      simp [NoApplication, Applies]⟩
  · rintro d hd c ⟨h1, h2⟩
    have inv := (hr.reachable Sample.idle_reachable).reachable.inv Sample.wf
    have h3 := (Domain.target_spec (force := false) (inv.rules d hd)).1 c h1
    have h4 : ∀ d ∈ (after Sample.menv ops Sample.idle).st.domains,
        (d.target (after Sample.menv ops Sample.idle).st.criteria false).last = d.last := by decide +kernel
    rw [h4 d hd] at h3
    rcases h2 with h2 | h2
    · simp at h2
    · exact h2 h3

/-- A start leaves no request waiting. -/
theorem C67_start {env : Env} {failOnError : Bool} {settings : Settings} {back : BackSync} {cs : List Criterion}
    (hok : (St.start env failOnError settings back cs).1 = .ok ()) : (St.start env failOnError settings back cs).2.asked = [] := by
  have key : ∀ (st : St), (st.finishStart env back).1 = .ok () → (st.finishStart env back).2.asked = [] := by
    intro st h
    unfold St.finishStart at h ⊢
    split
    · rename_i main hm
      simp only [hm] at h
      split
      · rename_i hv; simp [hv] at h
      · rename_i ds hv
        simp only [hv] at h
        unfold St.apply at h ⊢
        split
        · rename_i hx; simp [hx] at h
        · rfl
    · rename_i hm
      split at h
      · rename_i main h1; exact absurd h1 (hm main)
      · simp at h
  unfold St.start at hok ⊢
  split
  · rename_i x st1 h1
    simp only [h1] at hok
    exact key st1 hok
  · rename_i hx
    split at hok
    · rename_i u st1 h1; exact absurd h1 (hx u st1)
    · rename_i r h1
      exact absurd (show (St.initial env.root cs).loadSettings env.root env.rd failOnError settings = (.ok (), _) from
        Prod.ext hok rfl) (hx _ _)

/-! ## C68: the values do not depend on the synchronisation -/

/-- C68: two managers of the same structure with the same values, whose hardware may answer differently —
errors included — and that do the same operations, up to the requests for a resynchronisation, the
synchronisations and the changes of the automatic synchronisation, still have the same values: in the main
blackboard, in every configuration of every domain, for the criteria and the modes. -/
theorem C68_values_independent {e e' : MEnv} (hroot : e'.env.root = e.env.root) (hrd : e'.env.rd = e.env.rd)
    (hal : e'.allowed = e.allowed) {m m' : Mgr} (hm : SameValues m m') {ops ops' : List MOp}
    (hops : ops'.filter (fun op => !AboutHardware op) = ops.filter (fun op => !AboutHardware op))
    (hr : Runs e ops m) (hr' : Runs e' ops' m') : SameValues (after e ops m) (after e' ops' m') := by
  rw [← Mgr.quiet_eq, after_quiet e ops m hr, after_quiet e' ops' m' hr', hops]
  have he : e'.quiet = e.quiet := by
    obtain ⟨⟨r, hw, rd⟩, al⟩ := e
    obtain ⟨⟨r', hw', rd'⟩, al'⟩ := e'
    simp only at hroot hrd hal
    subst hroot hrd hal
    rfl
  have hqa : ∀ (ops : List MOp) (m : Mgr), quietAfter e ops m = quietAfter e' ops m := by
    intro ops
    induction ops with
    | nil => intro m; rfl
    | cons op ops ih => intro m; rw [quietAfter, quietAfter, ih, he]
  rw [← hqa, ← quietAfter_quiet, ← quietAfter_quiet e _ m', Mgr.quiet_eq.2 hm]

/-- C68: so every value read is the same. -/
theorem C68_reads_independent {e e' : MEnv} (hroot : e'.env.root = e.env.root) (hrd : e'.env.rd = e.env.rd)
    (hal : e'.allowed = e.allowed) {m m' : Mgr} (hm : SameValues m m') {ops ops' : List MOp}
    (hops : ops'.filter (fun op => !AboutHardware op) = ops.filter (fun op => !AboutHardware op))
    (hr : Runs e ops m) (hr' : Runs e' ops' m') :
    (∀ path, (after e' ops' m').getParameter e' path = (after e ops m).getParameter e path) ∧
    ∀ dom conf path, (after e' ops' m').getConfigurationParameter e' dom conf path =
      (after e ops m).getConfigurationParameter e dom conf path := by
  have h := C68_values_independent hroot hrd hal hm hops hr hr'
  constructor
  · intro path
    simp only [Mgr.getParameter, Mgr.ctx, hroot, h.main, h.raw, h.hex]
  · intro dom conf path
    simp only [Mgr.getConfigurationParameter, Mgr.ctx, hroot, h.raw, h.hex, St.getConfigParam, St.findBlackboard,
      St.findDomain, h.domains, h.attached, h.main]

/-- The sample on a hardware that always fails and with other synchronisations. -/
example :
    let e' : MEnv := ⟨⟨Sample.root, fun _ _ _ => some (s "no"), .none⟩, true, fun _ => 0⟩
    let ops : List MOp := [.setParameter (s "/Sys/sub/comp/vol") (s "5"), .setTuningMode false]
    let ops' : List MOp := [.setAutoSync false, .setParameter (s "/Sys/sub/comp/vol") (s "5"), .sync, .askResync 0,
      .setAutoSync true, .setTuningMode false, .sync]
    e'.env.root = Sample.menv.env.root ∧ SameValues Sample.mgr Sample.mgr ∧
    ops'.filter (fun op => !AboutHardware op) = ops.filter (fun op => !AboutHardware op) ∧
    Runs Sample.menv ops Sample.mgr ∧ Runs e' ops' Sample.mgr ∧
    (after e' ops' Sample.mgr).st.mem.log ≠ (after Sample.menv ops Sample.mgr).st.mem.log ∧
    (MOp.sync.step e' (((MOp.setAutoSync false).step e' Sample.mgr).2)).1 = .err := by
  intro e' ops ops'
  refine ⟨rfl, ⟨rfl, rfl, rfl, rfl, rfl, rfl, rfl, rfl⟩, rfl, ?_, ?_, by decide +kernel, by decide +kernel⟩
  · exact ⟨trivial, by decide +kernel, trivial, by decide +kernel, trivial⟩
  · exact ⟨trivial, by decide +kernel, trivial, by decide +kernel, trivial, by decide +kernel, trivial, by decide +kernel,
      trivial, by decide +kernel, trivial, by decide +kernel, trivial, by decide +kernel, trivial⟩

end PF
