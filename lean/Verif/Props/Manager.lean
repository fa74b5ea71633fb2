import Verif.Lemmas.Manager
import Verif.Props.DomainApply

/-! # Properties of the manager: tuning mode, handles, rogue elements, automatic synchronisation -/

namespace PF
open Spec

/-! ## C14: leaving tuning mode -/

/-- C14: when tuning mode is switched off, whatever was done before, the switch succeeds, and every
domain with a configuration that qualifies has the settings of the first such configuration in the
main blackboard (where another domain with a qualifying configuration holds the same bits, the one of
the two applied last has its settings there) and as last applied one. -/
theorem C14_leaving_tuning_mode {e : MEnv} (wf : e.env.root.WF) (fd : e.env.root.FieldsDisjoint)
    {cs : List Criterion} {m : Mgr} (h : MReachable e cs m) (ht : m.tuning = true) :
    ∃ m', (MOp.setTuningMode false).step e m = (.ok (), m') ∧ m'.tuning = false ∧
    ∀ (k : Nat) (d : Domain), m.st.domains[k]? = some d → ∀ c, FirstQualifying m.st.criteria d.configs c →
      m'.st.domains[k]? = some { d with last := some c.id } ∧
      ∀ a ∈ c.areas, ∀ i, e.env.root.Owns a.elem i →
        (∀ d' ∈ m.st.domains, d' ≠ d → (∃ c' ∈ d'.configs, Qualifies m.st.criteria c') →
          ∀ q ∈ d'.elems, ¬ e.env.root.Owns q i) →
        m'.st.mem.main.bit i = a.value e.env.root i := by
  obtain ⟨h1, _, h3⟩ := C11_first_applicable_wins wf h.reachable true
    (o := (m.st.apply e.env.root e.env.hw true).1) (st' := (m.st.apply e.env.root e.env.hw true).2) rfl
  have hst : (MOp.setTuningMode false).step e m =
      (.ok (), { m with st := (m.st.apply e.env.root e.env.hw true).2, tuning := false }) := by
    simp [MOp.step, Mgr.setTuningMode, ht, Mgr.run, DomOp.step, h1]
  refine ⟨_, hst, rfl, ?_⟩
  intro k d hd c hc
  obtain ⟨l, h4, h5, _⟩ := h3 k d hd
  rw [h5 c hc] at h4
  refine ⟨h4, ?_⟩
  intro a ha i hi hother
  refine C12_selected_settings_written wf fd h.reachable true (o := (m.st.apply e.env.root e.env.hw true).1)
    (st' := (m.st.apply e.env.root e.env.hw true).2) rfl (List.mem_of_getElem? hd) ⟨hc, .inl rfl⟩ ha hi ?_
  intro d' hd' hne c' hs q hq
  obtain ⟨pre, post, hp, hq', _⟩ := hs.1
  exact hother d' hd' hne ⟨c', by rw [hp]; simp, hq'⟩ q hq

/-- On the sample: `vol` is tuned to -3 although `Calm` (7) is the
first configuration that qualifies; leaving tuning mode gives 7. -/
example :
    let m := (MOp.setParameter (s "/Sys/sub/comp/vol") (s "-3")).step Sample.menv Sample.mgr
    m.1 = .ok () ∧ m.2.getParameter Sample.menv (s "/Sys/sub/comp/vol") = .ok (s "-3") ∧
    MReachable Sample.menv Sample.criteria m.2 ∧ m.2.tuning = true ∧
    ((MOp.setTuningMode false).step Sample.menv m.2).2.getParameter Sample.menv (s "/Sys/sub/comp/vol") = .ok (s "7") := by
  refine ⟨by decide +kernel, by decide +kernel, Sample.mreachable.step trivial (by decide +kernel), by decide +kernel, by decide +kernel⟩

/-! ## C48: tuning mode -/

/-- The operations that change domains, configurations or settings and do not check the tuning mode. -/
def Unchecked : MOp → Prop
  | .renameDomain .. => True
  | .renameConfiguration .. => True
  | .setApplicationRule .. => True
  | .clearApplicationRule .. => True
  | .setConfigurationParameter .. => True
  | _ => False

/-- C48, except for the operations of `Unchecked`: without tuning mode an operation that would change
domains, configurations, rules, settings of configurations or tuned parameters is refused and changes
nothing.  Missing: these operations do not check it (`C48_unchecked_operations_change`). -/
theorem C48_refused_without_tuning_mode_partial (e : MEnv) (m : Mgr) (ht : m.tuning = false) (op : MOp)
    (hop : IsTuning op) (hx : ¬ Unchecked op) : op.step e m = (.err, m) := by
  cases op <;> simp_all [IsTuning, Unchecked, MOp.step, Mgr.tuned, Mgr.setElementBytes]

/-- The sample manager after leaving tuning mode. -/
def Sample.idle : Mgr := ((MOp.setTuningMode false).step Sample.menv Sample.mgr).2

theorem Sample.idle_reachable : MReachable Sample.menv Sample.criteria Sample.idle :=
  Sample.mreachable.step trivial (by decide +kernel)

/-- The hypotheses hold of a reachable state, and in tuning mode the same operation is done. -/
example : Sample.idle.tuning = false ∧ IsTuning (.deleteDomain (s "V")) ∧ ¬ Unchecked (.deleteDomain (s "V")) ∧
    ((MOp.deleteDomain (s "V")).step Sample.menv Sample.mgr).1 = .ok () ∧
    ((MOp.deleteDomain (s "V")).step Sample.menv Sample.mgr).2.st ≠ Sample.mgr.st := by
  refine ⟨by decide +kernel, trivial, id, by decide +kernel, by decide +kernel⟩

/-- C48 does not hold of the code: each of these operations succeeds without tuning mode and changes
domains, configurations, rules or settings. -/
theorem C48_unchecked_operations_change :
    ∃ (e : MEnv) (cs : List Criterion) (m : Mgr), MReachable e cs m ∧ m.tuning = false ∧
      ∀ op ∈ [MOp.renameDomain (s "V") (s "W"), .renameConfiguration (s "V") (s "Loud") (s "Low"),
          .setApplicationRule (s "V") (s "Loud") (s "All{}"), .clearApplicationRule (s "V") (s "Loud"),
          .setConfigurationParameter (s "V") (s "Loud") (s "/Sys/sub/comp/vol") (s "12")],
        IsTuning op ∧ (op.step e m).1 = .ok () ∧ (op.step e m).2.st.domains ≠ m.st.domains := by
  refine ⟨Sample.menv, Sample.criteria, Sample.idle, Sample.idle_reachable, by decide +kernel, ?_⟩
  intro op hop
  simp only [List.mem_cons, List.not_mem_nil, or_false] at hop
  rcases hop with rfl | rfl | rfl | rfl | rfl
  all_goals exact ⟨trivial, by decide +kernel, by decide +kernel⟩

/-- C48: what changes the tuning mode.  Only `setTuningMode` does, to what it is given; it is refused
when the mode is already that one, or when tuning is not allowed. -/
theorem C48_tuning_mode (e : MEnv) (m : Mgr) (op : MOp) :
    ((op.step e m).2.tuning ≠ m.tuning → op = .setTuningMode (!m.tuning) ∧ (m.tuning = false → e.allowed = true)) ∧
    ((MOp.setTuningMode m.tuning).step e m = (.err, m)) ∧
    (e.allowed = false → m.tuning = false → ∀ on, (MOp.setTuningMode on).step e m = (.err, m)) := by
  refine ⟨?_, by simp [MOp.step, Mgr.setTuningMode], ?_⟩
  · have tuned : ∀ o, (m.tuned e o).2.tuning = m.tuning := by intro o; unfold Mgr.tuned; split <;> rfl
    have hsync : (m.sync e).2.tuning = m.tuning := by unfold Mgr.sync; split <;> rfl
    intro hne
    cases op with
    | setTuningMode on =>
      revert hne
      simp only [MOp.step, Mgr.setTuningMode]
      split
      · intro hne; exact absurd rfl hne
      · rename_i h1
        have hon : on = !m.tuning := by cases on <;> cases hm : m.tuning <;> simp_all
        split
        · intro hne; exact absurd rfl hne
        · rename_i h2
          intro _
          refine ⟨by rw [hon], ?_⟩
          intro hm
          rw [hon, hm] at h2
          simpa using h2
    | setAutoSync on =>
      exfalso; apply hne
      simp only [MOp.step, Mgr.setAutoSync]
      split
      · split
        · rename_i m' h; rw [h] at hsync; exact hsync
        · exact hsync
      · rfl
    | sync => exact absurd hsync hne
    | applyConfigurations => exfalso; apply hne; simp only [MOp.step, Mgr.applyConfigurations]; split <;> rfl
    | setElementBytes path args =>
      exfalso; apply hne
      simp only [MOp.step, Mgr.setElementBytes]
      split
      · rfl
      · split
        · rfl
        · split
          · rfl
          · split <;> rfl
    | handleSet p v =>
      exfalso; apply hne
      simp only [MOp.step, Mgr.handleSet]
      split
      · rfl
      · split <;> rfl
    | _ => first | exact absurd rfl hne | exact absurd (tuned _) hne
  · intro ha ht on
    cases on <;> simp [MOp.step, Mgr.setTuningMode, ha, ht]

/-! ## C50: rogue elements -/

/-- C50: after any history, an element is rogue iff neither it, nor any element above or below it, is
associated with a domain. -/
theorem C50_rogue_iff {e : MEnv} (wf : e.env.root.WF) {cs : List Criterion} {m : Mgr} (h : MReachable e cs m)
    {p : Pos} {el : Elem} (he : e.env.root.at? p = some el) :
    e.env.root.isRogue m.st.attached p = true ↔ InNoDomain m.st p :=
  (h.reachable.inv wf).isRogue_iff he

/-- C50: the rogue listing, from the root. It holds exactly the elements that are in no domain and
below no other such element, each one once. -/
theorem C50_listing_exact {e : MEnv} (wf : e.env.root.WF) {cs : List Criterion} {m : Mgr} (h : MReachable e cs m) :
    (e.env.root.rogueList m.st.attached).Nodup ∧
    ∀ p, p ∈ e.env.root.rogueList m.st.attached ↔
      (∃ el, e.env.root.at? p = some el) ∧ InNoDomain m.st p ∧ ∀ r, r <+: p → r ≠ p → ¬ InNoDomain m.st r :=
  ⟨aggregate_nodup _ _ _, (h.reachable.inv wf).rogueList_iff⟩

/-- C50: the listing covers exactly the elements (in particular the parameters) that are in no domain,
and its elements do not overlap: every element in no domain is at or below exactly one listed element,
and nothing at or below a listed element is in a domain. -/
theorem C50_listing_covers {e : MEnv} (wf : e.env.root.WF) {cs : List Criterion} {m : Mgr} (h : MReachable e cs m)
    {q : Pos} {el : Elem} (he : e.env.root.at? q = some el) :
    (InNoDomain m.st q → ∃ p ∈ e.env.root.rogueList m.st.attached, p <+: q) ∧
    (∀ p ∈ e.env.root.rogueList m.st.attached, p <+: q →
      (∀ d ∈ m.st.domains, ∀ r ∈ d.elems, Unrelated p r) ∧ (∀ d ∈ m.st.domains, ∀ r ∈ d.elems, ¬ q <+: r ∧ ¬ r <+: q)) ∧
    (∀ p ∈ e.env.root.rogueList m.st.attached, ∀ p' ∈ e.env.root.rogueList m.st.attached, p <+: q → p' <+: q → p = p') := by
  have hx := (C50_listing_exact wf h).2
  refine ⟨?_, ?_, ?_⟩
  · intro hq
    obtain ⟨p, hp, h1, h2⟩ := shortest_prefix (InNoDomain m.st) q hq
    refine ⟨p, (hx p).2 ⟨?_, h1, h2⟩, hp⟩
    obtain ⟨t, rfl⟩ := hp
    rw [Elem.at?_append] at he
    cases hr : e.env.root.at? p with
    | none => simp [hr] at he
    | some g => exact ⟨g, rfl⟩
  · intro p hp hpq
    obtain ⟨_, h1, _⟩ := (hx p).1 hp
    refine ⟨h1, ?_⟩
    intro d hd r hr
    have hu := h1 d hd r hr
    refine ⟨fun hqr => hu.1 (hpq.trans hqr), ?_⟩
    intro hrq
    rcases List.prefix_or_prefix_of_prefix hpq hrq with h3 | h3
    · exact hu.1 h3
    · exact hu.2 h3
  · intro p hp p' hp' h1 h2
    obtain ⟨_, hi, hm⟩ := (hx p).1 hp
    obtain ⟨_, hi', hm'⟩ := (hx p').1 hp'
    rcases List.prefix_or_prefix_of_prefix h1 h2 with h3 | h3
    · exact Classical.byContradiction fun hne => hm' p h3 hne hi
    · exact Classical.byContradiction fun hne => hm p' h3 (Ne.symm hne) hi'

/-- On the sample: `label` and `gains` are in no domain; their parent is not listed since `vol`, below
it, is in one. -/
example : Sample.root.rogueList Sample.mgr.st.attached = [[0, 0, 2], [0, 0, 3]] ∧
    Sample.root.rogueText Sample.mgr.st.attached = s "/Sys/sub/comp/label\n/Sys/sub/comp/gains\n" ∧
    Sample.root.isRogue Sample.mgr.st.attached [0, 0, 2] = true ∧
    Sample.root.isRogue Sample.mgr.st.attached [0, 0] = false ∧
    Sample.root.isRogue Sample.mgr.st.attached [0, 0, 1, 0] = false := by decide +kernel

/-- Without any domain the whole structure is listed as one element. -/
example : Sample.root.rogueList (Mgr.initial Sample.root Sample.criteria).st.attached = [[]] := by decide +kernel

/-! ## C49: sets through handles -/

/-- C49: a typed set through a handle changes something only without tuning mode, for a parameter that
is in no domain, and with an argument of the form the parameter takes; then it changes nothing but
the bits of that parameter in the main blackboard, and calls at most the syncer of the parameter. -/
theorem C49_changes_only_outside_domains {e : MEnv} (wf : e.env.root.WF) {cs : List Criterion} {m : Mgr}
    (h : MReachable e cs m) (p : Pos) (v : HVal) {o : Out Unit} {m' : Mgr}
    (hs : (MOp.handleSet p v).step e m = (o, m')) (hc : m'.st ≠ m.st) :
    m.tuning = false ∧ InNoDomain m.st p ∧
    (∃ el, e.env.root.at? p = some el ∧ RightForm el.kind v) ∧
    m'.st = { m.st with mem := m'.st.mem } ∧ m'.tuning = m.tuning ∧ m'.autoSync = m.autoSync ∧ m'.raw = m.raw ∧ m'.hex = m.hex ∧
    (∀ i, ¬ e.env.root.Owns p i → m'.st.mem.main.bit i = m.st.mem.main.bit i) ∧
    (m'.st.mem.log = m.st.mem.log ∨
      ∃ x, e.env.root.getSyncer none p = some x ∧ m'.st.mem.log = m.st.mem.log ++ [⟨x, m'.st.mem.main⟩]) := by
  have inv := h.reachable.inv wf
  simp only [MOp.step, Mgr.handleSet] at hs
  split at hs
  · simp only [Prod.mk.injEq] at hs; exact absurd (congrArg Mgr.st hs.2.symm) hc
  · rename_i hv
    split at hs
    · simp only [Prod.mk.injEq] at hs; exact absurd (congrArg Mgr.st hs.2.symm) hc
    · rename_i ht
      simp only [Bool.not_eq_eq_eq_not, Bool.not_true, Bool.not_eq_false, Bool.not_eq_true] at hv ht
      simp only [Mgr.run, DomOp.step, Prod.mk.injEq] at hs
      obtain ⟨_, rfl⟩ := hs
      cases he : e.env.root.at? p with
      | none => simp [Elem.setValid, he] at hv
      | some el =>
        obtain ⟨h1, h2, h3⟩ := (setValid_iff he).1 hv
        obtain ⟨off, ho⟩ := Elem.offset_of_at (off := 0) he
        refine ⟨ht, (inv.isRogue_iff he).1 h2, ⟨el, rfl, ?_⟩, rfl, rfl, rfl, rfl, rfl, ?_, Env.setMainVal_log _ _ _ _⟩
        · apply Classical.byContradiction
          intro hf
          apply hc
          obtain ⟨w1, w2⟩ := setParamVal_wrong e.env.rd h1 m.st.mem.main off h3 hf
          have : (e.env.setMainVal p v m.st.mem).2 = m.st.mem := by
            unfold Env.setMainVal
            rw [he, ho]
            dsimp only
            split
            · rename_i hx; rw [hx] at w1; exact absurd rfl w1
            · rename_i hx; rw [hx] at w2; simp only at w2; rw [w2]
          simp only [this]
        · intro i hi
          simp only
          rw [Env.setMainVal_board e.env he ho]
          refine (setParamVal_frame v (fun t hk => (wf.bit_wf he t hk).1)).2 i ?_
          apply Classical.byContradiction
          intro hn
          exact hi ⟨el, off, he, ho, by omega, by omega⟩

/-- C49: in tuning mode a set with an argument of the right form on a parameter in no domain succeeds,
and no set has any effect. -/
theorem C49_no_effect_in_tuning_mode {e : MEnv} (wf : e.env.root.WF) {cs : List Criterion} {m : Mgr}
    (h : MReachable e cs m) (ht : m.tuning = true) (p : Pos) (v : HVal) :
    ((MOp.handleSet p v).step e m).2 = m ∧
    (∀ el, e.env.root.at? p = some el → InNoDomain m.st p → RightForm el.kind v →
      (MOp.handleSet p v).step e m = (.ok (), m)) := by
  constructor
  · simp only [MOp.step, Mgr.handleSet, ht]
    split <;> rfl
  · intro el he hn hf
    have hv : e.env.root.setValid m.st.attached p v = true := by
      rw [setValid_iff he]
      refine ⟨?_, ((h.reachable.inv wf).isRogue_iff he).2 hn, ?_⟩
      · cases hk : el.kind with
        | group g => rw [hk] at hf; exact absurd hf (by simp [RightForm])
        | bitBlock g => rw [hk] at hf; exact absurd hf (by simp [RightForm])
        | _ => rfl
      · cases hk : el.kind <;> rw [hk] at hf <;> cases v <;>
          simp_all [RightForm, HVal.inputSize, HVal.atoms, EKind.arrayLength]
    simp [MOp.step, Mgr.handleSet, hv, ht]

/-- C49: a typed set on a parameter that is in a domain, or above or below an element that is in one,
is refused without effect; so is one with a list of the wrong length. -/
theorem C49_refused_in_domain {e : MEnv} (wf : e.env.root.WF) {cs : List Criterion} {m : Mgr}
    (h : MReachable e cs m) (p : Pos) (v : HVal) {el : Elem} (he : e.env.root.at? p = some el)
    (hr : ¬ InNoDomain m.st p ∨ el.kind.isParameter = false ∨ v.inputSize ≠ el.kind.arrayLength) :
    (MOp.handleSet p v).step e m = (.err, m) := by
  have hv : e.env.root.setValid m.st.attached p v = false := by
    rw [Bool.eq_false_iff, Ne, setValid_iff he, (h.reachable.inv wf).isRogue_iff he]
    rintro ⟨h1, h2, h3⟩
    rcases hr with hr | hr | hr
    · exact hr h2
    · rw [hr] at h1; simp at h1
    · exact hr h3
  simp [MOp.step, Mgr.handleSet, hv]

/-- C49: without tuning mode, a set with an argument of the right form on a parameter in no domain is
done: it has the result of the access to the parameter, on the main blackboard. -/
theorem C49_done_outside_tuning_mode {e : MEnv} (wf : e.env.root.WF) {cs : List Criterion} {m : Mgr}
    (h : MReachable e cs m) (ht : m.tuning = false) {p : Pos} {v : HVal} {el : Elem} {off : Nat}
    (he : e.env.root.at? p = some el) (ho : e.env.root.offset 0 p = some off) (hn : InNoDomain m.st p)
    (hf : RightForm el.kind v) :
    ((MOp.handleSet p v).step e m).1 ≠ .abort ∧
    ((MOp.handleSet p v).step e m).2.st.mem.main = (setParamVal e.env.rd el.kind m.st.mem.main off v).2 ∧
    ((setParamVal e.env.rd el.kind m.st.mem.main off v).1 = .err →
      ((MOp.handleSet p v).step e m).1 = .err ∧ ((MOp.handleSet p v).step e m).2.st.mem.log = m.st.mem.log) ∧
    ((setParamVal e.env.rd el.kind m.st.mem.main off v).1 = .ok () → ∀ x, e.env.root.getSyncer none p = some x →
      ((MOp.handleSet p v).step e m).2.st.mem.log =
        m.st.mem.log ++ [⟨x, ((MOp.handleSet p v).step e m).2.st.mem.main⟩] ∧
      (((MOp.handleSet p v).step e m).1 = .ok () ↔
        e.env.hw m.st.mem.log x ((MOp.handleSet p v).step e m).2.st.mem.main = none)) := by
  have inv := h.reachable.inv wf
  have hp : el.kind.isParameter = true := by
    cases hk : el.kind with
    | group g => rw [hk] at hf; exact absurd hf (by simp [RightForm])
    | bitBlock g => rw [hk] at hf; exact absurd hf (by simp [RightForm])
    | _ => rfl
  have hv : e.env.root.setValid m.st.attached p v = true := by
    rw [setValid_iff he]
    refine ⟨hp, (inv.isRogue_iff he).2 hn, ?_⟩
    cases hk : el.kind <;> rw [hk] at hf <;> cases v <;>
      simp_all [RightForm, HVal.inputSize, HVal.atoms, EKind.arrayLength]
  have hs : (MOp.handleSet p v).step e m = m.run e (.handleSet p v) := by
    simp [MOp.step, Mgr.handleSet, hv, ht]
  rw [hs]
  simp only [Mgr.run, DomOp.step]
  refine ⟨?_, Env.setMainVal_board e.env he ho v _, ?_, ?_⟩
  · intro ha
    obtain ⟨e', he', hns⟩ := Env.setMainVal_abort wf inv.main ha
    rw [he] at he'
    simp only [Option.some.injEq] at he'
    subst he'
    apply hns
    cases hk : el.kind <;> rw [hk] at hf <;> cases v <;> simp_all [RightForm, HVal.Suits]
  · intro hx
    unfold Env.setMainVal
    rw [he, ho]
    dsimp only
    split
    · rename_i h1; rw [h1] at hx; simp at hx
    · rename_i h1; rw [h1] at hx; exact ⟨hx, rfl⟩
  · intro hx x hsy
    unfold Env.setMainVal
    rw [he, ho]
    dsimp only
    split
    · simp only [Env.syncParam, Bool.not_true, Bool.false_eq_true, ↓reduceIte, hsy]
      refine ⟨trivial, ?_⟩
      split <;> simp_all
    · rename_i hne h1
      rw [h1] at hx
      simp only at hx
      subst hx
      exact (hne rfl).elim

/-- On the sample: `label` is in no domain; without tuning mode it is set through a handle, in tuning
mode the set succeeds without effect; `vol` is in a domain and is refused. -/
example :
    InNoDomain Sample.idle.st [0, 0, 2] ∧ ¬ InNoDomain Sample.idle.st [0, 0, 0] ∧
    ((MOp.handleSet [0, 0, 2] (.one (.str (s "ab")))).step Sample.menv Sample.idle).1 = .ok () ∧
    ((MOp.handleSet [0, 0, 2] (.one (.str (s "ab")))).step Sample.menv Sample.idle).2.getParameter Sample.menv
      (s "/Sys/sub/comp/label") = .ok (s "ab") ∧
    ((MOp.handleSet [0, 0, 3] (.bools [true, false])).step Sample.menv Sample.idle).2.getParameter Sample.menv
      (s "/Sys/sub/comp/gains/0") = .ok (s "1") ∧
    ((MOp.handleSet [0, 0, 2] (.one (.str (s "ab")))).step Sample.menv Sample.mgr).1 = .ok () ∧
    ((MOp.handleSet [0, 0, 2] (.one (.str (s "ab")))).step Sample.menv Sample.mgr).2.getParameter Sample.menv
      (s "/Sys/sub/comp/label") = .ok [] ∧
    ((MOp.handleSet [0, 0, 0] (.one (.sint 5#32))).step Sample.menv Sample.idle).1 = .err := by
  refine ⟨?_, ?_, by decide +kernel, by decide +kernel, by decide +kernel, by decide +kernel, by decide +kernel, by decide +kernel⟩
  · exact (C50_rogue_iff Sample.wf Sample.idle_reachable (el := (Sample.root.at? [0, 0, 2]).get rfl) rfl).1 (by decide +kernel)
  · intro hn
    have := (C50_rogue_iff Sample.wf Sample.idle_reachable (el := (Sample.root.at? [0, 0, 0]).get rfl) rfl).2 hn
    revert this
    decide +kernel

/-- C49 does not hold of the code: `setAsBytes` of a handle checks neither the domains nor the tuning
mode. -/
theorem C49_bytes_unchecked :
    ∃ (e : MEnv) (cs : List Criterion) (m : Mgr) (p : Pos) (bytes : List Byte), MReachable e cs m ∧
      m.tuning = true ∧ ¬ InNoDomain m.st p ∧ ((MOp.handleSetBytes p bytes).step e m).1 = .ok () ∧
      ((MOp.handleSetBytes p bytes).step e m).2.st.mem.main ≠ m.st.mem.main := by
  refine ⟨Sample.menv, Sample.criteria, Sample.mgr, [0, 0, 0], [1#8, 2#8], Sample.mreachable, rfl, ?_, by decide +kernel, by decide +kernel⟩
  intro hn
  have := (C50_rogue_iff Sample.wf Sample.mreachable (el := (Sample.root.at? [0, 0, 0]).get rfl) rfl).2 hn
  revert this
  decide +kernel

/-- C49 does not hold of the code: neither does `setAsXML`. -/
theorem C49_xml_unchecked :
    ∃ (e : MEnv) (cs : List Criterion) (m : Mgr) (p : Pos) (doc : XElem), MReachable e cs m ∧
      m.tuning = true ∧ ¬ InNoDomain m.st p ∧ ((MOp.handleSetXml p doc).step e m).1 = .ok () ∧
      ((MOp.handleSetXml p doc).step e m).2.st.mem.main ≠ m.st.mem.main := by
  refine ⟨Sample.menv, Sample.criteria, Sample.mgr, [0, 0, 0], .mk (s "IntegerParameter") (s "vol") [] (s "9") [],
    Sample.mreachable, rfl, ?_, by decide +kernel, by decide +kernel⟩
  intro hn
  have := (C50_rogue_iff Sample.wf Sample.mreachable (el := (Sample.root.at? [0, 0, 0]).get rfl) rfl).2 hn
  revert this
  decide +kernel

/-- C49: an empty list of texts for a parameter that is not an array passes the checks, and stops the
program in the access (an assertion). -/
theorem C49_empty_list_of_texts_stops :
    ∃ (e : MEnv) (cs : List Criterion) (m : Mgr) (p : Pos), MReachable e cs m ∧
      ((MOp.handleSet p (.strs [])).step e m).1 = .abort :=
  ⟨Sample.menv, Sample.criteria, Sample.idle, [0, 0, 2], Sample.idle_reachable, by decide +kernel⟩

/-! ## C51: automatic synchronisation -/

/-- The operations that may call syncers although automatic synchronisation is off. -/
def Syncing : MOp → Prop
  | .sync => True
  | .setAutoSync on => on = true
  | .setTuningMode on => on = false
  | .applyConfigurations => True
  | .handleSet .. => True
  | _ => False

/-- C51, except for typed sets through handles: with automatic synchronisation off, no set of a
parameter, of bytes or of a setting of a configuration, no restoration, and no operation on domains
calls a syncer.  Only these do: `sync`, turning automatic synchronisation on, and applying the
configurations.  Missing: a typed set through a handle calls the syncer of the parameter
(`C51_handles_synchronise`). -/
theorem C51_off_calls_no_syncer_partial (e : MEnv) (m : Mgr) (ha : m.autoSync = false) (op : MOp)
    (hop : ¬ Syncing op) : (op.step e m).2.st.mem.log = m.st.mem.log := by
  cases op with
  | setTuningMode on =>
    have hon : on = true := by cases on <;> simp_all [Syncing]
    subst hon
    simp only [MOp.step, Mgr.setTuningMode]
    split
    · rfl
    · split <;> rfl
  | setAutoSync on =>
    have hon : on = false := by cases on <;> simp_all [Syncing]
    subst hon
    rfl
  | setElementBytes path args =>
    simp only [MOp.step, Mgr.setElementBytes]
    split
    · rfl
    · split
      · rfl
      · split
        · exact m.run_log e _ ha
        · split <;> rfl
  | sync => exact absurd trivial hop
  | applyConfigurations => exact absurd trivial hop
  | handleSet p v => exact absurd trivial hop
  | setValueSpace raw => rfl
  | setOutputRawFormat hex => rfl
  | setCriterion i v => rfl
  | askResync i => rfl
  | setConfigurationParameter dom conf path text => exact m.run_log e _ ha
  | handleSetBytes p bytes => exact m.run_log e _ ha
  | setElementXml path doc => exact m.tuned_log e _ ha
  | handleSetXml p doc => exact m.run_log e _ ha
  | importDomains withSettings doc => exact m.tuned_log e _ trivial
  | importDomain overwrite withSettings doc => exact m.tuned_log e _ trivial
  | setParameter path text => exact m.tuned_log e _ ha
  | restoreConfiguration dom name => exact m.tuned_log e _ ha
  | renameDomain name new => exact m.run_log e _ trivial
  | renameConfiguration dom name new => exact m.run_log e _ trivial
  | setApplicationRule dom name text => exact m.run_log e _ trivial
  | clearApplicationRule dom name => exact m.run_log e _ trivial
  | createDomain name => exact m.tuned_log e _ trivial
  | deleteDomain name => exact m.tuned_log e _ trivial
  | deleteAllDomains => exact m.tuned_log e _ trivial
  | setSequenceAwareness name aware => exact m.tuned_log e _ trivial
  | createConfiguration dom name => exact m.tuned_log e _ trivial
  | deleteConfiguration dom name => exact m.tuned_log e _ trivial
  | saveConfiguration dom name => exact m.tuned_log e _ trivial
  | addElement dom path => exact m.tuned_log e _ trivial
  | removeElement dom path => exact m.tuned_log e _ trivial
  | split dom path => exact m.tuned_log e _ trivial
  | setElementSequence dom name paths => exact m.tuned_log e _ trivial

/-- C51: during a tuning session (tuning mode on) with automatic synchronisation off, only `sync`,
turning automatic synchronisation on, and leaving tuning mode call syncers. -/
theorem C51_tuning_session (e : MEnv) (m : Mgr) (ha : m.autoSync = false) (ht : m.tuning = true) (op : MOp)
    (h1 : op ≠ .sync) (h2 : op ≠ .setAutoSync true) (h3 : op ≠ .setTuningMode false) :
    (op.step e m).2.st.mem.log = m.st.mem.log := by
  by_cases hs : Syncing op
  · cases op <;> simp only [Syncing] at hs
    case sync => exact absurd rfl h1
    case setAutoSync on => subst hs; exact absurd rfl h2
    case setTuningMode on => subst hs; exact absurd rfl h3
    case applyConfigurations => simp [MOp.step, Mgr.applyConfigurations, ht]
    case handleSet p v =>
      simp only [MOp.step, Mgr.handleSet, ht]
      split <;> rfl
  · exact C51_off_calls_no_syncer_partial e m ha op hs

/-- C51: `sync` is refused while automatic synchronisation is on. -/
theorem C51_sync_refused_when_on (e : MEnv) (m : Mgr) (ha : m.autoSync = true) :
    MOp.sync.step e m = (.err, m) := by simp [MOp.step, Mgr.sync, ha]

/-- The calls `sync` makes, from a given history of calls, and whether all of them succeed. -/
def AllSucceed (e : MEnv) (m : Mgr) (xs : List Nat) : Prop :=
  ∀ k x, xs[k]? = some x →
    e.env.hw (m.st.mem.log ++ (xs.take k).map (fun y => ⟨y, m.st.mem.main⟩)) x m.st.mem.main = none

/-- C51: `sync` with automatic synchronisation off, and turning it on, both call every syncer of the
system once, with the main blackboard, and change nothing else; turning it on leaves it off and fails
if one of the syncers fails.  Turning it off, or on again, does nothing more. -/
theorem C51_turning_on {e : MEnv} (nn : e.env.root.SyncersNotNested) (m : Mgr) (ha : m.autoSync = false) :
    ∃ xs : List Nat, xs.Nodup ∧ (∀ x, x ∈ xs ↔ ∃ q el, e.env.root.at? q = some el ∧ el.syncer = some x) ∧
      ∃ st', st' = { m.st with mem := ⟨m.st.mem.main, m.st.mem.log ++ xs.map (fun x => ⟨x, m.st.mem.main⟩)⟩ } ∧
      (AllSucceed e m xs → MOp.sync.step e m = (.ok (), { m with st := st' }) ∧
        (MOp.setAutoSync true).step e m = (.ok (), { m with st := st', autoSync := true })) ∧
      (¬ AllSucceed e m xs → MOp.sync.step e m = (.err, { m with st := st' }) ∧
        (MOp.setAutoSync true).step e m = (.err, { m with st := st' })) := by
  have hroot : e.env.root.at? [] = some e.env.root := by cases e.env.root; rfl
  refine ⟨e.env.root.syncerSet [], syncerSet_nodup _ _, ?_, _, rfl, ?_⟩
  · intro x
    rw [syncerSet_iff nn hroot]
    constructor
    · rintro ⟨q, el, _, h1, h2⟩; exact ⟨q, el, h1, h2⟩
    · rintro ⟨q, el, h1, h2⟩; exact ⟨q, el, .inr (List.nil_prefix), h1, h2⟩
  · have herr : AllSucceed e m (e.env.root.syncerSet []) ↔
        (syncAll e.env.hw m.st.mem.main (e.env.root.syncerSet []) m.st.mem.log).2 = [] := by
      rw [syncAll_errors, List.filterMap_eq_nil_iff]
      unfold AllSucceed
      constructor
      · intro h k hk
        cases hx : (e.env.root.syncerSet [])[k]? with
        | none => rfl
        | some x => exact h k x hx
      · intro h k x hx
        have := h k (by rw [List.mem_range]; exact (List.getElem?_eq_some_iff.1 hx).1)
        rw [hx] at this
        exact this
    have hstep : MOp.sync.step e m =
        (errorsOut (.ok (syncAll e.env.hw m.st.mem.main (e.env.root.syncerSet []) m.st.mem.log).2),
          { m with st := { m.st with mem := ⟨m.st.mem.main, m.st.mem.log ++ (e.env.root.syncerSet []).map (fun x => ⟨x, m.st.mem.main⟩)⟩ } }) := by
      simp only [MOp.step, Mgr.sync, ha, Mgr.run, DomOp.step, Env.syncSystem, syncAll_log]
      rfl
    have hauto : (MOp.setAutoSync true).step e m =
        match MOp.sync.step e m with
        | (.ok (), m') => (.ok (), { m' with autoSync := true })
        | r => r := by
      simp only [MOp.step, Mgr.setAutoSync, ha, Bool.not_false, Bool.and_self, ↓reduceIte]
      rcases Mgr.sync e m with ⟨o, m'⟩
      cases o <;> rfl
    rw [hauto, hstep, herr]
    generalize (syncAll e.env.hw m.st.mem.main (e.env.root.syncerSet []) m.st.mem.log).2 = errs
    constructor
    · rintro rfl; exact ⟨rfl, rfl⟩
    · intro hne
      cases errs with
      | nil => exact absurd rfl hne
      | cons x xs => exact ⟨rfl, rfl⟩

/-- C51: turning automatic synchronisation off, or on when it is on, only sets the mode. -/
theorem C51_turning_off (e : MEnv) (m : Mgr) :
    (MOp.setAutoSync false).step e m = (.ok (), { m with autoSync := false }) ∧
    (m.autoSync = true → (MOp.setAutoSync true).step e m = (.ok (), m)) := by
  constructor
  · rfl
  · intro ha
    simp only [MOp.step, Mgr.setAutoSync, ha]
    cases m
    simp_all

/-- C51: with automatic synchronisation on, a text set of a parameter that succeeds calls the syncer of
the parameter once, with the new blackboard. -/
theorem C51_on_set_synchronised {e : MEnv} (m : Mgr) (ha : m.autoSync = true) (path text : Str)
    (hs : ((MOp.setParameter path text).step e m).1 = .ok ()) :
    ∃ p x, (∃ rest, e.env.root.accessTarget path = some (p, rest)) ∧ e.env.root.getSyncer none p = some x ∧
      ((MOp.setParameter path text).step e m).2.st.mem.log =
        m.st.mem.log ++ [⟨x, ((MOp.setParameter path text).step e m).2.st.mem.main⟩] := by
  revert hs
  simp only [MOp.step, Mgr.tuned]
  split
  · simp
  · simp only [Mgr.run, DomOp.step, Env.setMain, ha]
    split
    · rename_i b p rest _ hp
      simp only [Env.syncParam, Bool.not_true, Bool.false_eq_true, ↓reduceIte]
      cases hx : e.env.root.getSyncer none p with
      | none => simp
      | some x =>
        intro _
        exact ⟨p, x, ⟨rest, hp⟩, hx, rfl⟩
    · rename_i b tgt o h1 hne
      intro ho
      simp only at ho
      subst ho
      unfold Elem.setText at h1
      split at h1
      · simp at h1
      · rename_i p rest hp
        exact (hne p rest hp rfl).elim

/-- C51: with automatic synchronisation on, setting the bytes of an element calls every syncer that
concerns the element once, with the new blackboard; with it off, none.  It fails if one of the syncers
fails, and succeeds otherwise. -/
theorem C51_bytes_synchronised {e : MEnv} (nn : e.env.root.SyncersNotNested) (m : Mgr) (p : Pos) {el : Elem}
    (he : e.env.root.at? p = some el) (bytes : List Byte) {b : Board}
    (hb : e.env.root.setBytes m.st.mem.main p bytes = .ok b) :
    ∃ xs : List Nat, xs.Nodup ∧ (∀ x, x ∈ xs ↔ m.autoSync = true ∧ Concerns e.env.root p x) ∧
      ((MOp.handleSetBytes p bytes).step e m).2 =
        { m with st := { m.st with mem := ⟨b, m.st.mem.log ++ xs.map (fun x => ⟨x, b⟩)⟩ } } ∧
      (((MOp.handleSetBytes p bytes).step e m).1 = .ok () ↔ ∀ k x, xs[k]? = some x →
        e.env.hw (m.st.mem.log ++ (xs.take k).map (fun y => ⟨y, b⟩)) x b = none) ∧
      ((MOp.handleSetBytes p bytes).step e m).1 ≠ .abort := by
  cases ha : m.autoSync with
  | true =>
    refine ⟨e.env.root.syncerSet p, syncerSet_nodup _ _, ?_, ?_, ?_⟩
    · intro x; rw [syncerSet_iff nn he]; simp
    · simp only [MOp.step, Mgr.run, DomOp.step, he, Env.setMainBytes, hb, ha, syncAll_log]
      rfl
    · have hst : ((MOp.handleSetBytes p bytes).step e m).1 =
          errorsOut (.ok (syncAll e.env.hw b (e.env.root.syncerSet p) m.st.mem.log).2) := by
        simp only [MOp.step, Mgr.run, DomOp.step, he, Env.setMainBytes, hb, ha]
        rfl
      have herr : (∀ k x, (e.env.root.syncerSet p)[k]? = some x →
            e.env.hw (m.st.mem.log ++ ((e.env.root.syncerSet p).take k).map (fun y => ⟨y, b⟩)) x b = none) ↔
          (syncAll e.env.hw b (e.env.root.syncerSet p) m.st.mem.log).2 = [] := by
        rw [syncAll_errors, List.filterMap_eq_nil_iff]
        constructor
        · intro h k hk
          cases hx : (e.env.root.syncerSet p)[k]? with
          | none => rfl
          | some x => exact h k x hx
        · intro h k x hx
          have := h k (by rw [List.mem_range]; exact (List.getElem?_eq_some_iff.1 hx).1)
          rw [hx] at this
          exact this
      rw [hst, herr]
      cases (syncAll e.env.hw b (e.env.root.syncerSet p) m.st.mem.log).2 <;> simp [errorsOut]
  | false =>
    refine ⟨[], List.nodup_nil, by simp, ?_⟩
    simp [MOp.step, Mgr.run, DomOp.step, he, Env.setMainBytes, hb, ha, errorsOut]

/-- C51 does not hold for handles: with automatic synchronisation off, a typed set through a handle
calls a syncer. -/
theorem C51_handles_synchronise :
    ∃ (e : MEnv) (cs : List Criterion) (m : Mgr) (p : Pos) (v : HVal), MReachable e cs m ∧ m.autoSync = false ∧
      ((MOp.handleSet p v).step e m).1 = .ok () ∧ ((MOp.handleSet p v).step e m).2.st.mem.log ≠ m.st.mem.log :=
  ⟨Sample.menv, Sample.criteria, ((MOp.setAutoSync false).step Sample.menv Sample.idle).2, [0, 0, 2],
    .one (.str (s "ab")), Sample.idle_reachable.step trivial (by decide +kernel), by decide +kernel, by decide +kernel, by decide +kernel⟩

/-- On the sample: with automatic synchronisation off a set calls no syncer; turning it on calls the
three syncers of the system; then the set calls the one of `vol`. -/
example :
    let off := ((MOp.setAutoSync false).step Sample.menv Sample.mgr).2
    let set := ((MOp.setParameter (s "/Sys/sub/comp/vol") (s "5")).step Sample.menv off).2
    let on := ((MOp.setAutoSync true).step Sample.menv set).2
    off.autoSync = false ∧ set.st.mem.main ≠ off.st.mem.main ∧ set.st.mem.log = off.st.mem.log ∧
    on.autoSync = true ∧ (on.st.mem.log.drop set.st.mem.log.length).map (·.syncer) = [1, 2, 3] ∧
    (((MOp.setParameter (s "/Sys/sub/comp/vol") (s "6")).step Sample.menv on).2.st.mem.log.drop on.st.mem.log.length).map
      (·.syncer) = [1] := by decide +kernel

/-- A hardware that fails: automatic synchronisation stays off. -/
example :
    let e : MEnv := ⟨⟨Sample.root, fun _ x _ => if x = 2 then some (s "no") else none, .none⟩, true, fun _ => 0⟩
    let off := ((MOp.setAutoSync false).step e (Mgr.initial Sample.root Sample.criteria)).2
    ((MOp.setAutoSync true).step e off).1 = .err ∧ ((MOp.setAutoSync true).step e off).2.autoSync = false ∧
    ((MOp.setAutoSync true).step e off).2.st.mem.log.length = 3 := by decide +kernel

end PF
