import Verif.Lemmas.Answer
import Verif.Lemmas.StringsEnd
import Verif.Props.Command
import Verif.Props.Listing

/-!
# C83: commands are answered
-/

namespace PF
open Spec

/-! ## Reads and exports -/

/-- **C83 (exports).**  The document of all domains, of a domain that exists, and of the settings of an element that
exists are always made. -/
theorem C83_documents_partial {e : MEnv} (wf : e.env.root.WF) {cs : List Criterion} {m : Mgr} (h : MReachable e cs m)
    (hs : StringsEnd e.env.root m.st) (hf : FormatFits e.env.root m.ctx) :
    (∀ withSettings, ∃ x, m.st.exportDomains e.env.root m.ctx withSettings = .ok x) ∧
    (∀ withSettings name d, m.st.findDomain name = some d →
      ∃ x, m.st.exportDomain e.env.root m.ctx withSettings name = .ok x) ∧
    (∀ p el, e.env.root.at? p = some el → ∃ x, e.env.root.getXml m.ctx m.st.mem.main p = .ok x) := by
  have inv := h.reachable.inv wf
  refine ⟨fun ws => exportDomains_answers wf inv hs hf ws, fun ws name d hd => ?_, fun p el he => getXml_answers wf inv hs hf he⟩
  unfold St.exportDomain
  rw [hd]
  exact Domain.toXml_answers wf inv hs hf (St.findDomain_mem hd).1 ws

/-- **C83 (parameters).**  A parameter that exists is always read, in the main blackboard. -/
theorem C83_parameter_partial {e : MEnv} (wf : e.env.root.WF) {cs : List Criterion} {m : Mgr} (h : MReachable e cs m)
    (hs : StringsEnd e.env.root m.st) (hf : FormatFits e.env.root m.ctx) {path : Str} {p : Pos} {el : Elem}
    (hl : e.env.root.locate path = some p) (he : e.env.root.at? p = some el) (hk : el.kind.isParameter = true) :
    ∃ t, m.getParameter e path = .ok t := by
  exact (getText_answers wf hs (h.reachable.inv wf).main hf path).2 p (wf.access_of_locate hl he hk)

/-- **C83 (reads).**  In a state that the manager can reach, no command that reads stops the program. -/
theorem C83_reads_partial {e : MEnv} (wf : e.env.root.WF) {cs : List Criterion} {m : Mgr} (h : MReachable e cs m)
    (hs : StringsEnd e.env.root m.st) (hf : FormatFits e.env.root m.ctx) {print : Xml → Str} {cmd : Str} {args : List Str}
    {v : MEnv → Mgr → Out Str} (hr : Reads print cmd args v) : v e m ≠ .abort := by
  have inv := h.reachable.inv wf
  have hprint : ∀ o : Out Xml, o ≠ .abort → printed print o ≠ .abort := by
    intro o ho
    cases o <;> simp_all [printed]
  cases hr with
  | tuning | space | format | autoSync | criteria | criteriaCsv | domains | rogue | criteriaXml | systemXml => simp
  | aware d r => dsimp only; split <;> simp
  | sequence d c r => dsimp only; split <;> simp
  | rule d c r => dsimp only; split <;> simp
  | bytes p r =>
    dsimp only
    cases hl : e.env.root.locate p with
    | none => simp
    | some q =>
      obtain ⟨el, he⟩ := Elem.locate_at hl
      obtain ⟨bs, hb⟩ := getBytes_answers wf inv.main he
      simp [hb, Out.bind]
  | parameter p r => exact (getText_answers wf hs inv.main hf p).1
  | configParameter d c p r => exact getConfigParam_answers wf inv hs hf d c p
  | status r => obtain ⟨t, ht⟩ := (C74_always_answered wf h).1; simp [ht]
  | dumpDomains r => obtain ⟨t, ht⟩ := (C74_always_answered wf h).2; simp [ht]
  | domainElements d r =>
    dsimp only
    have := C74_domain_elements wf h.reachable d
    cases hd : m.st.findDomain d with
    | none => rw [this.2 hd]; simp
    | some x => rw [this.1 x hd]; simp
  | configurations d r =>
    dsimp only
    unfold St.configurationsText
    split <;> simp
  | elements p r =>
    dsimp only
    by_cases hd : ∃ q, Designates e.env.root p q
    · obtain ⟨q, hq⟩ := hd
      obtain ⟨el, _, ht⟩ := C72_elements hq
      rw [ht]; simp
    · rw [C72_nothing_designated false (fun q hq => hd ⟨q, hq⟩)]; simp
  | parameters p r =>
    dsimp only
    by_cases hd : ∃ q, Designates e.env.root p q
    · obtain ⟨q, hq⟩ := hd
      obtain ⟨el, _, _, _, ht⟩ := C72_parameters wf hq
      rw [ht]; simp
    · rw [C72_nothing_designated true (fun q hq => hd ⟨q, hq⟩)]; simp
  | dump p r => exact dumpText_answers wf inv hs hf p
  | size p r =>
    dsimp only
    unfold Elem.sizeText
    cases hl : e.env.root.locate p with
    | none => simp
    | some q =>
      obtain ⟨el, he⟩ := Elem.locate_at hl
      simp [he, Out.orAbort]
  | belonging p r =>
    dsimp only
    cases hl : e.env.root.locate p with
    | none => rw [(C73_nothing_designated m.st hl).1]; simp
    | some q =>
      obtain ⟨ds, _, _, ht⟩ := C73_belonging wf h.reachable hl
      rw [ht]; simp
  | associated p r =>
    dsimp only
    cases hl : e.env.root.locate p with
    | none => rw [(C73_nothing_designated m.st hl).2]; simp
    | some q =>
      obtain ⟨ds, _, ht⟩ := C73_associated wf h.reachable hl
      rw [ht]; simp
  | associatedElements r =>
    dsimp only
    obtain ⟨ps, ds, _, _, _, ht⟩ := C73_associated_elements wf h.reachable e.addr
    rw [ht]; simp
  | conflicting r =>
    dsimp only
    obtain ⟨ps, ds, _, _, _, ht⟩ := C73_conflicting wf h.reachable e.addr
    rw [ht]; simp
  | structureXml p r => dsimp only; split <;> simp
  | elementXml p r =>
    dsimp only
    cases hl : e.env.root.locate p with
    | none => simp
    | some q =>
      obtain ⟨el, he⟩ := Elem.locate_at hl
      obtain ⟨x, hx⟩ := getXml_answers wf inv hs hf he
      simp [hx]
  | domainsXml r =>
    obtain ⟨x, hx⟩ := exportDomains_answers wf inv hs hf true
    exact hprint _ (by rw [hx]; simp)
  | domainsXmlOld r =>
    obtain ⟨x, hx⟩ := exportDomains_answers wf inv hs hf true
    exact hprint _ (by rw [hx]; simp)
  | domainXml d r =>
    refine hprint _ ?_
    unfold St.exportDomain
    cases hd : m.st.findDomain d with
    | none => simp
    | some y =>
      obtain ⟨x, hx⟩ := Domain.toXml_answers wf inv hs hf (St.findDomain_mem hd).1 true
      simp [hx]

/-! ## Operations -/

/-- **C83 (operations).**  In a state that the manager can reach, an operation that a command asks for stops the program
only if it is one of `Fatal`. -/
theorem C83_operations {e : MEnv} (wf : e.env.root.WF) {cs : List Criterion} {m : Mgr} (h : MReachable e cs m)
    {w : Docs} {cmd : Str} {args : List Str} {op : MOp} (hop : Means w cmd args op) (ha : (op.step e m).1 = .abort) :
    Fatal m.st.criteria op := by
  have run : ∀ o : DomOp, (m.run e o).1 = .abort → Stops e.env m.st o := fun o ho => C18_no_access_outside wf h.reachable o ho
  have tuned : ∀ o : DomOp, (m.tuned e o).1 = .abort → Stops e.env m.st o := by
    intro o ho
    unfold Mgr.tuned at ho
    split at ho
    · simp at ho
    · exact run o ho
  have hsync : (m.sync e).1 ≠ .abort := by
    unfold Mgr.sync
    split
    · simp
    · exact fun ho => run _ ho
  cases hop
  case tuningOn | tuningOff =>
    exfalso
    revert ha
    simp only [MOp.step, Mgr.setTuningMode]
    repeat' split
    all_goals first | exact fun ho => run (.apply true) ho | simp
  case autoSyncOn | autoSyncOff =>
    exfalso
    revert ha
    simp only [MOp.step, Mgr.setAutoSync]
    repeat' split
    all_goals first | exact hsync | simp
  case raw | real | hex | dec => simp [MOp.step] at ha
  case sync => exact absurd ha hsync
  case setElementBytes p b bs =>
    simp only [MOp.step, Mgr.setElementBytes] at ha
    refine ⟨b, bs, rfl, ?_⟩
    split at ha
    · simp at ha
    · split at ha
      · simp at ha
      · split at ha
        · simp at ha
        · rename_i hc; rw [hc]; simp
  all_goals first | exact tuned _ ha | exact run _ ha

/-- **C83 (commands).**  In a state that the manager can reach, a command that is `Survivable` is answered. -/
theorem C83_command_partial {e : MEnv} (wf : e.env.root.WF) {cs : List Criterion} {h : Host} (hm : MReachable e cs h.mgr)
    (hs : StringsEnd e.env.root h.mgr.st) (u : Unmodelled) {cmd : Str} {args : List Str} (hv : Survivable u e h cmd args) :
    (processCommand (mgrHandler u e) h cmd args).1 ≠ none := by
  intro h0
  rcases C47_stops_partial u e h cmd args hv.aware h0 with ⟨op, h1, h2⟩ | ⟨v, h1, h2⟩ | ⟨f, doc, h1, h2⟩
  · exact hv.ops op h1 (C83_operations wf hm h1 h2)
  · exact C83_reads_partial wf hm hs (hv.format (.inl ⟨v, h1⟩)) h1 h2
  · have hd := C83_documents_partial wf hm hs (hv.format (.inr ⟨f, doc, h1⟩))
    cases h1 with
    | domains f r => obtain ⟨x, hx⟩ := hd.1 false; simp [hx] at h2
    | domainsSettings f r => obtain ⟨x, hx⟩ := hd.1 true; simp [hx] at h2
    | domain d f r =>
      cases hfd : h.mgr.st.findDomain d with
      | none => simp [St.exportDomain, hfd] at h2
      | some y => obtain ⟨x, hx⟩ := hd.2.1 true d y hfd; simp [hx] at h2

/-! ## Strings -/

/-- **C83 (strings).**  Whatever the operation, except the writing of bytes by a handle, strings still end after it. -/
theorem C83_strings_kept {e : MEnv} (wf : e.env.root.WF) {cs : List Criterion} {m : Mgr} (h : MReachable e cs m)
    (hs : StringsEnd e.env.root m.st) {op : MOp} (hop : ∀ p bytes, op ≠ .handleSetBytes p bytes) :
    StringsEnd e.env.root (op.step e m).2.st :=
  (MOp.step_fine wf (Spec.StringsEnd.fine wf (h.reachable.inv wf) hs) hop).ends

/-- **C83 (histories).**  From a blackboard of zeros, without the writing of bytes by a handle, strings end. -/
theorem C83_strings_end {e : MEnv} (wf : e.env.root.WF) {cs : List Criterion} {m : Mgr} (h : TextHistory e cs m) :
    MReachable e cs m ∧ StringsEnd e.env.root m.st := by
  induction h with
  | start => exact ⟨.start, (St.Ended.initial wf cs).ends⟩
  | step _ hr ha hop ih => exact ⟨ih.1.step hr ha, C83_strings_kept wf ih.1 ih.2 hop⟩

/-- **C83 (commands and strings).**  Whatever the command, strings still end after it. -/
theorem C83_command_strings {e : MEnv} (wf : e.env.root.WF) {cs : List Criterion} {h : Host} (hm : MReachable e cs h.mgr)
    (hs : StringsEnd e.env.root h.mgr.st) (u : Unmodelled) (cmd : Str) (args : List Str) :
    StringsEnd e.env.root (processCommand (mgrHandler u e) h cmd args).2.mgr.st := by
  rcases C47_changes u e h cmd args with k | ⟨op, hop, k⟩ | ⟨_, _, _, k, _⟩
  · rw [k]; exact hs
  · rw [k]; exact C83_strings_kept wf hm hs hop.no_bytes
  · rw [k]; exact hs

/-! ## Sessions -/

/-- **C83 (sessions).**  Whatever survivable requests a remote client sends, each one is answered. -/
theorem C83_session_partial {e : MEnv} (wf : e.env.root.WF) {cs : List Criterion} (u : Unmodelled) {h : Host}
    (hm : MReachable e cs h.mgr) (hs : StringsEnd e.env.root h.mgr.st) (rs : List Request) (hx : RegularSession u e h rs)
    (hv : SurvivableSession u e h rs) :
    (handleAll (remoteCommand u e) h rs).2.2 = .closed ∧ (handleAll (remoteCommand u e) h rs).2.1.length = rs.length := by
  induction rs generalizing h with
  | nil => exact ⟨rfl, rfl⟩
  | cons r rs ih =>
    have h1 := C83_command_partial wf hm hs u hv.1
    cases ha : (remoteCommand u e h r).1 with
    | none =>
      simp only [remoteCommand, Option.map_eq_none_iff] at ha
      exact absurd ha h1
    | some a =>
      have hone : (handleAll (remoteCommand u e) h [r]).2.2 = .closed := by simp [handleAll, ha]
      have hm' := C47_remote_reachable u e cs h hm [r] ⟨hx.1, trivial⟩ hone
      simp only [handleAll, ha] at hm'
      have hs' : StringsEnd e.env.root (remoteCommand u e h r).2.mgr.st := by
        have := C83_command_strings wf hm hs u (bytesStr r.command) (r.arguments.map bytesStr)
        simp only [remoteCommand]
        exact this
      have := ih hm' hs' hx.2 hv.2
      simp only [handleAll, ha, List.length_cons]
      exact ⟨this.1, by rw [this.2]⟩

/-! ## The sample -/

theorem Sample.mrun_text {e : MEnv} {cs : List Criterion} {ops : List MOp} {m : Mgr} (h : TextHistory e cs m)
    (hr : Sample.mruns e ops m = true) (ho : ∀ op ∈ ops, ∀ p bytes, op ≠ .handleSetBytes p bytes) :
    TextHistory e cs (Sample.mrun e ops m) := by
  induction ops generalizing m with
  | nil => exact h
  | cons op ops ih =>
    simp only [Sample.mruns, Bool.and_eq_true, bne_iff_ne, ne_eq] at hr
    exact ih (h.step (Sample.mplain_regular hr.1.1) hr.1.2 (ho op (by simp))) hr.2 fun o h' => ho o (by simp [h'])

theorem Sample.mgr_text : TextHistory Sample.menv Sample.criteria Sample.mgr := by
  rw [← Sample.mgr_eq]
  refine Sample.mrun_text .start Sample.mruns_ops ?_
  have : Sample.mops.all (fun op => match op with | .handleSetBytes .. => false | _ => true) = true := by decide +kernel
  intro op hop p bytes
  have := List.all_eq_true.1 this op hop
  rintro rfl
  simp at this

/-- No parameter of the sample is an enumeration: it can be shown in every format. -/
theorem Sample.fits (ctx : Ctx) : FormatFits Sample.root ctx := by
  intro _ _ p e he hw
  have hp := Sample.mem_positions he
  simp only [Sample.positions, List.mem_cons, List.not_mem_nil, or_false] at hp
  rcases hp with rfl | rfl | rfl | rfl | rfl | rfl | rfl | rfl | rfl | rfl <;>
    simp [Sample.root, Sample.component, Sample.block, Elem.at?] at he <;> subst he <;>
    simp [WideEnum, Elem.kind, Sample.int16] at hw

/-- The hypotheses of C83 hold of the sample manager; its documents and its string are given. -/
example : MReachable Sample.menv Sample.criteria Sample.mgr ∧ StringsEnd Sample.root Sample.mgr.st ∧
    FormatFits Sample.root Sample.mgr.ctx ∧
    ((MOp.setParameter (s "/Sys/sub/comp/label") (s "abc")).step Sample.menv Sample.mgr).2.getParameter Sample.menv
      (s "/Sys/sub/comp/label") = .ok (s "abc") :=
  ⟨Sample.mreachable, (C83_strings_end Sample.wf Sample.mgr_text).2, Sample.fits _, by decide +kernel⟩

/-- When no document can be read, all but three commands are survivable on the sample. -/
theorem Sample.survivable {u : Unmodelled} (hu : ∀ t, u.parse t = none) (h : Host) {cmd : Str} {args : List Str}
    (h1 : cmd ≠ s "setSequenceAwareness") (h2 : cmd ≠ s "setRule") (h3 : cmd ≠ s "setElementBytes") :
    Survivable u Sample.menv h cmd args where
  aware := .inl h1
  format _ := Sample.fits _
  ops op hop := by
    cases hop with
    | importDomains f x r h => simp [Unmodelled.docs, hu] at h
    | importDomainsSettings f x r h => simp [Unmodelled.docs, hu] at h
    | importDomain f x h => simp [Unmodelled.docs, hu] at h
    | importDomainOver f x r h => simp [Unmodelled.docs, hu] at h
    | setDomains t x r h => simp [Unmodelled.docs, hu] at h
    | setDomain t x h => simp [Unmodelled.docs, hu] at h
    | setDomainOver t x r h => simp [Unmodelled.docs, hu] at h
    | _ => first | exact id | contradiction

/-- A session of survivable requests: a value is set, exported in hexadecimal, a command fails. -/
example (text : Str → Mgr → List Str → Str) (status : Str → Mgr → List Str → CmdStatus) (print : Xml → Str)
    (writable : Str → Bool) :
    let u : Unmodelled := ⟨text, status, fun _ => none, print, writable⟩
    let rs : List Request := [⟨strBytes (s "setParameter"), [strBytes (s "/Sys/sub/comp/label"), strBytes (s "abc")]⟩,
      ⟨strBytes (s "setValueSpace"), [strBytes (s "raw")]⟩, ⟨strBytes (s "setOutputRawFormat"), [strBytes (s "hex")]⟩,
      ⟨strBytes (s "getDomainsWithSettingsXML"), []⟩, ⟨strBytes (s "destroy"), []⟩]
    SurvivableSession u Sample.menv ⟨Sample.mgr, fun _ => none⟩ rs := by
  have key : ∀ r : List Byte, bytesStr r ≠ s "setSequenceAwareness" ∧ bytesStr r ≠ s "setRule" ∧ bytesStr r ≠ s "setElementBytes" →
      ∀ (h : Host) (args : List Str), Survivable ⟨text, status, fun _ => none, print, writable⟩ Sample.menv h (bytesStr r) args :=
    fun r hr h args => Sample.survivable (fun _ => rfl) h hr.1 hr.2.1 hr.2.2
  exact ⟨key _ (by decide +kernel) _ _, key _ (by decide +kernel) _ _, key _ (by decide +kernel) _ _,
    key _ (by decide +kernel) _ _, key _ (by decide +kernel) _ _, trivial⟩

/-! ## Witnesses -/

/-- C83 does not hold of the code without the condition on strings: a handle writes bytes of which none is NUL, and then
`getParameter` and the export of the settings read outside the blackboard. -/
theorem C83_string_without_end_stops :
    ∃ (e : MEnv) (cs : List Criterion) (m : Mgr) (op : MOp), e.env.root.WF ∧ MReachable e cs m ∧ (op.step e m).1 = .ok () ∧
      (op.step e m).2.getParameter e (s "/Sys/sub/comp/label") = .abort ∧
      e.env.root.getXml (op.step e m).2.ctx (op.step e m).2.st.mem.main [] = .abort := by
  refine ⟨Sample.menv, Sample.criteria, Sample.mgr, .handleSetBytes [] (List.replicate 10 0xff#8), Sample.wf, Sample.mreachable,
    by decide +kernel, by decide +kernel, ?_⟩
  have : (match Sample.root.getXml ⟨false, false⟩ (List.replicate 10 0xff#8) [] with | .abort => true | _ => false) = true := by
    decide +kernel
  show Sample.root.getXml ⟨false, false⟩ (List.replicate 10 0xff#8) [] = .abort
  split at this
  · assumption
  · simp at this

/-- A structure with an enumeration of 32 bits. -/
def SampleWide.root : Elem := .mk (s "Sys") (.group (s "SystemClass")) none
  [.mk (s "sub") (.group (s "Subsystem")) none [.mk (s "mode") (.scalar (.enum ⟨4, [(s "Off", 0#32)]⟩)) (some 0) []]]

theorem SampleWide.wf : SampleWide.root.WF := by
  refine .group (fun c hc => ?_) (fun c hc t => ?_)
  · simp only [List.mem_cons, List.not_mem_nil, or_false] at hc
    subst hc
    refine .group (fun c hc => ?_) (fun c hc t => ?_)
    · simp only [List.mem_cons, List.not_mem_nil, or_false] at hc
      subst hc
      exact .scalar (.inr (.inr rfl))
    · simp only [List.mem_cons, List.not_mem_nil, or_false] at hc
      subst hc
      simp [Elem.kind]
  · simp only [List.mem_cons, List.not_mem_nil, or_false] at hc
    subst hc
    simp [Elem.kind]

def SampleWide.menv : MEnv := ⟨⟨SampleWide.root, Sample.env.hw, Sample.env.rd⟩, true, fun p => p.sum⟩

/-- C83 does not hold of the code without the condition on the format: an enumeration of 32 bits is shown in hexadecimal,
in the raw value space, with a shift by 32 bits. -/
theorem C83_wide_enumeration_stops :
    ∃ (e : MEnv) (m : Mgr), e.env.root.WF ∧ MReachable e [] m ∧ StringsEnd e.env.root m.st ∧
      m.getParameter e (s "/Sys/sub/mode") = .abort := by
  have ht : TextHistory SampleWide.menv [] (Sample.mrun SampleWide.menv [.setValueSpace true, .setOutputRawFormat true]
      (Mgr.initial SampleWide.root [])) :=
    Sample.mrun_text .start (by decide +kernel) (by simp)
  obtain ⟨h1, h2⟩ := C83_strings_end SampleWide.wf ht
  exact ⟨SampleWide.menv, _, SampleWide.wf, h1, h2, by decide +kernel⟩

/-- C83 does not hold of the code for the other commands that are not `Survivable`: `setElementBytes` with a byte, a rule
that ends after a value (see C07), and `setSequenceAwareness` without a value. -/
theorem C83_fatal_commands_stop (u : Unmodelled) :
    ∀ c ∈ [(s "setElementBytes", [s "/Sys/sub/on", s "1"]), (s "setRule", [s "V", s "Calm", s "Any{}, Device Is A "]),
        (s "setSequenceAwareness", [s "V"])],
      (processCommand (mgrHandler u Sample.menv) ⟨Sample.mgr, fun _ => none⟩ c.1 c.2).1 = none := by
  intro c hc
  simp only [List.mem_cons, List.not_mem_nil, or_false] at hc
  rcases hc with rfl | rfl | rfl
  · exact (C47_means u Sample.menv ⟨Sample.mgr, fun _ => none⟩ _ _ _ (.setElementBytes _ _ _)).2.2.2 (by decide +kernel)
  · exact (C47_means u Sample.menv ⟨Sample.mgr, fun _ => none⟩ _ _ _ (.setRule _ _ _ _)).2.2.2 (by decide +kernel)
  · rw [C47_sequence_awareness_outside]

end PF
