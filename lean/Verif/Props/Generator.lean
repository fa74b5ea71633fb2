import Verif.Lemmas.Generator
import Verif.Props.Command
import Verif.Props.Framework
import Verif.Props.Listing
import Verif.Props.Answer
import Verif.Props.Restart

/-! # C89: the domain generator -/

namespace PF
open Spec

theorem runCommand_noargs (u : Unmodelled) (e : MEnv) (h : Host) (cmd : Str) :
    runCommand u e h cmd [] = processCommand (mgrHandler u e) h cmd [] :=
  congrArg (processCommand (mgrHandler u e) h cmd) (List.map_nil (f := fun a => bytesStr (trim (strBytes a))))

attribute [local irreducible] runCommand processCommand mgrHandler

theorem GenWorld.commands_append (g : GenWorld) (st : GenState) (a b : List (List Str)) :
    g.commands st (a ++ b) = (g.commands st a).bind fun st' => g.commands st' b := by
  induction a generalizing st with
  | nil => rfl
  | cons c a ih =>
    simp only [List.cons_append, GenWorld.commands]
    cases g.command st c with
    | ok st' => exact ih st'
    | threw => rfl
    | stopped => rfl
    | endless => rfl
    | outside => rfl

theorem GenWorld.commands_criteria (g : GenWorld) (ds : List GenCriterion) (cs0 : List Criterion) :
    ((∀ d ∈ ds, Acceptable d) → ∃ cs, AreDeclared ds cs ∧
      g.commands (.before cs0) (ds.map GenCriterion.command) = .ok (.before (cs0 ++ cs))) ∧
    (∀ r, g.commands (.before cs0) (ds.map GenCriterion.command) = .ok r → ∀ d ∈ ds, Acceptable d) := by
  induction ds generalizing cs0 with
  | nil => exact ⟨fun _ => ⟨[], .nil, by simp [GenWorld.commands]⟩, by simp⟩
  | cons d ds ih =>
    obtain ⟨h1, h2⟩ := addCriteria_command cs0 d
    simp only [List.map_cons, GenWorld.commands, GenCriterion.command, GenWorld.command, if_true]
    constructor
    · intro ha
      obtain ⟨c, hc, hadd⟩ := h1 (ha d (by simp))
      obtain ⟨cs, hcs, hrun⟩ := (ih (cs0 ++ [c])).1 fun d' hd => ha d' (by simp [hd])
      refine ⟨c :: cs, .cons (ha d (by simp)) hc hcs, ?_⟩
      rw [hadd]
      simp only [Gen.bind]
      rw [List.append_assoc] at hrun
      exact hrun
    · intro r hr
      obtain ⟨st, hst, hr⟩ := Gen.bind_eq_ok.1 hr
      obtain ⟨cs', hadd, hst⟩ := Gen.bind_eq_ok.1 hst
      cases hst
      intro d' hd
      rcases List.mem_cons.1 hd with rfl | hd
      · exact h2 _ hadd
      · exact (ih cs').2 r hr d' hd

theorem GenWorld.commands_foreign (g : GenWorld) {cmds : List (List Str)} (hw : ∀ c ∈ cmds, ScriptCommand c)
    (hf : ∀ c ∈ cmds, Foreign c) {e : MEnv} {h : Host} {n : Nat} {st : GenState} :
    g.commands (.after e h n) cmds = .ok st ↔ ∃ h' k, Ran g.u e h cmds h' k ∧ st = .after e h' (n + k) := by
  induction cmds generalizing h n with
  | nil =>
    constructor
    · intro hr
      cases hr
      exact ⟨h, 0, .nil h, rfl⟩
    · rintro ⟨h', k, hr, rfl⟩
      cases hr
      rfl
  | cons c cmds ih =>
    cases c with
    | nil => exact absurd rfl (hw [] (by simp)).1
    | cons cmd args =>
      have hf0 := hf (cmd :: args) (by simp)
      have n1 : cmd ≠ s "createSelectionCriterion" := fun k => hf0.1 (by simp [k])
      have n2 : cmd ≠ s "start" := fun k => hf0.2 (by simp [k])
      have ih := fun {h n} => @ih (fun c hc => hw c (by simp [hc])) (fun c hc => hf c (by simp [hc])) h n
      simp only [GenWorld.commands, GenWorld.command, if_neg n1, if_neg n2]
      rcases hrun : runCommand g.u e h cmd args with ⟨_ | ⟨_ | _, t⟩, h1⟩
      · simp only [Gen.bind]
        constructor
        · intro k; cases k
        · rintro ⟨h', k, hr, -⟩
          cases hr with
          | done hr _ => rw [hrun] at hr; cases hr
          | refused hr _ => rw [hrun] at hr; cases hr
      · simp only [Gen.bind, ih]
        constructor
        · rintro ⟨h', k, hr, rfl⟩
          exact ⟨h', k + 1, .refused hrun hr, by congr 1; omega⟩
        · rintro ⟨h', k, hr, rfl⟩
          cases hr with
          | done hr _ => rw [hrun] at hr; cases hr
          | refused hr hr' =>
            rw [hrun] at hr
            cases hr
            exact ⟨h', _, hr', by congr 1; omega⟩
      · simp only [Gen.bind, ih]
        constructor
        · rintro ⟨h', k, hr, rfl⟩
          exact ⟨h', k, .done hrun hr, rfl⟩
        · rintro ⟨h', k, hr, rfl⟩
          cases hr with
          | done hr hr' =>
            rw [hrun] at hr
            cases hr
            exact ⟨h', _, hr', rfl⟩
          | refused hr _ => rw [hrun] at hr; cases hr

theorem conflicting_answer (u : Unmodelled) (e : MEnv) (h : Host) :
    (∀ t, h.mgr.st.conflictingElementsText e.env.root e.addr = .ok t →
      (runCommand u e h (s "listConflictingElements") []).1 = some (true, t)) ∧
    (h.mgr.st.conflictingElementsText e.env.root e.addr = .err →
      ∃ t, (runCommand u e h (s "listConflictingElements") []).1 = some (false, t)) ∧
    (h.mgr.st.conflictingElementsText e.env.root e.addr = .abort →
      (runCommand u e h (s "listConflictingElements") []).1 = none) := by
  rw [runCommand_noargs]
  exact (C47_reads u e h _ _ _ (Reads.conflicting [])).2

theorem finish_cases {a : Option (Bool × Str)} {v : Out Str} {x : Out Xml} {n : Nat} {print : Xml → Str} {r : GenEnd}
    (h1 : ∀ t, v = .ok t → a = some (true, t)) (h2 : v = .err → ∃ t, a = some (false, t)) (h3 : v = .abort → a = none) :
    (match (generalizing := false) a with
      | none => .stopped
      | some (false, _) => .threw
      | some (true, t) => x.gen.bind fun doc => .ok ⟨normalizeExitCode (if t = [] then n else n + 1), some (print doc)⟩) =
        Gen.ok r ↔
      ∃ t doc, v = .ok t ∧ x = .ok doc ∧ r = ⟨min (if t = [] then n else n + 1) 255, some (print doc)⟩ := by
  cases v with
  | err => obtain ⟨t, ht⟩ := h2 rfl; rw [ht]; simp
  | abort => rw [h3 rfl]; simp
  | ok t =>
    rw [h1 t rfl]
    simp only [Gen.bind_eq_ok]
    cases x with
    | err => simp [Out.gen, Out.load, Load.gen]
    | abort => simp [Out.gen, Out.load, Load.gen]
    | ok doc =>
      simp only [Out.gen, Out.load, Load.gen, Gen.ok.injEq, Out.ok.injEq, normalizeExitCode]
      constructor
      · rintro ⟨_, rfl, rfl⟩; exact ⟨t, _, rfl, rfl, rfl⟩
      · rintro ⟨_, _, rfl, rfl, rfl⟩; exact ⟨_, rfl, rfl⟩

theorem GenWorld.finish_ok (g : GenWorld) {e : MEnv} {h : Host} {n : Nat} {r : GenEnd} :
    g.finish (.after e h n) = .ok r ↔ ∃ t doc, h.mgr.st.conflictingElementsText e.env.root e.addr = .ok t ∧
      h.mgr.st.exportDomains e.env.root h.mgr.ctx true = .ok doc ∧
      r = ⟨min (if t = [] then n else n + 1) 255, some (g.u.print doc)⟩ :=
  have h := conflicting_answer g.u e h
  finish_cases h.1 h.2.1 h.2.2

theorem GenWorld.run_output (g : GenWorld) {input : Str} {k : Nat} {out : Str} :
    g.run input = .ok ⟨k, some out⟩ ↔ ∃ st, g.parse (.before []) (inputLines input) = .ok st ∧ g.finish st = .ok ⟨k, some out⟩ := by
  unfold GenWorld.run
  rw [← Gen.bind_eq_ok]
  cases (g.parse (.before []) (inputLines input)).bind g.finish <;> simp

theorem GenWorld.start_ok (g : GenWorld) {cs : List Criterion} {st : GenState} :
    g.start cs = .ok st ↔ ∃ r m, startFramework g.world ⟨false, false, g.validate, true⟩ g.config g.fuel cs = .ok r ∧
      (MOp.setTuningMode true).step r.env r.mgr = (.ok (), m) ∧ st = .after r.env ⟨m, g.files⟩ 0 := by
  unfold GenWorld.start GenWorld.policies
  rw [Gen.bind_eq_ok]
  constructor
  · rintro ⟨r, h1, h2⟩
    cases hs : startFramework g.world ⟨false, false, g.validate, true⟩ g.config g.fuel cs with
    | ok r' =>
      rw [hs] at h1
      cases h1
      rcases hm : (MOp.setTuningMode true).step r.env r.mgr with ⟨_ | _ | _, m⟩
      · rw [hm] at h2; cases h2; exact ⟨r, m, rfl, hm, rfl⟩
      · rw [hm] at h2; cases h2
      · rw [hm] at h2; cases h2
    | refused => rw [hs] at h1; cases h1
    | threw => rw [hs] at h1; cases h1
    | stopped => rw [hs] at h1; cases h1
    | endless => rw [hs] at h1; cases h1
  · rintro ⟨r, m, h1, h2, rfl⟩
    exact ⟨r, by rw [h1]; rfl, by rw [h2]⟩

theorem GenCriterion.written {d : GenCriterion} (hn : Word d.name) (hv : ∀ w ∈ d.values, Word w) : ScriptCommand d.command := by
  refine ⟨by simp [GenCriterion.command], by simp [GenCriterion.command], ?_⟩
  intro w hw
  simp only [GenCriterion.command, List.mem_cons] at hw
  rcases hw with rfl | rfl | rfl | hw
  · exact ⟨by decide, by decide⟩
  · cases d.inclusive <;> exact ⟨by decide, by decide⟩
  · exact hn
  · exact hv w hw

theorem script_commands {ds : List GenCriterion} (hw : ∀ d ∈ ds, Word d.name ∧ ∀ w ∈ d.values, Word w) {cmds : List (List Str)}
    (hc : ∀ c ∈ cmds, ScriptCommand c) : ∀ c ∈ script ds cmds, ScriptCommand c := by
  intro c h
  simp only [script, List.mem_append, List.mem_map, List.mem_cons] at h
  rcases h with ⟨d, hd, rfl⟩ | rfl | h
  · exact GenCriterion.written (hw d hd).1 (hw d hd).2
  · refine ⟨by simp, by decide, ?_⟩
    intro w h
    simp only [List.mem_singleton] at h
    subst h
    exact ⟨by decide, by decide⟩
  · exact hc c h

/-- **C89 (commands).**  The generator reads back the commands that were written to it, whatever their words are (a line without
words is skipped). -/
theorem C89_script {cmds : List (List Str)} (h : ∀ c ∈ cmds, ScriptCommand c) :
    ((inputLines (scriptText cmds)).map (tokenize ['\x00'] false)).filter (· ≠ []) = cmds := by
  rw [inputLines_script h, List.map_append, List.map_map]
  have h1 : cmds.map (tokenize ['\x00'] false ∘ joinWith '\x00') = cmds := by
    exact (List.map_congr_left (g := id) fun c hc => tokenize_command (h c hc)).trans (List.map_id _)
  have h2 : ([[]] : List Str).map (tokenize ['\x00'] false) = [[]] := rfl
  rw [h1, h2, List.filter_append]
  have h3 : cmds.filter (fun c => decide (c ≠ [])) = cmds := List.filter_eq_self.2 fun c hc => by simpa using (h c hc).1
  rw [h3]
  simp

/-- **C89 (document).**  A script whose criteria are acceptable: the generator writes a document exactly when the framework starts
with these criteria and tuning is allowed, no command stops it, and the domains can be exported; what it writes are the domains, with
their settings, after the last command; and its status counts the commands that were refused, and one more if some element is in
several domains, up to 255. -/
theorem C89_generates (g : GenWorld) {ds : List GenCriterion} (hd : ∀ d ∈ ds, Acceptable d)
    (hw : ∀ d ∈ ds, Word d.name ∧ ∀ w ∈ d.values, Word w) :
    ∃ cs, AreDeclared ds cs ∧ ∀ cmds, (∀ c ∈ cmds, ScriptCommand c ∧ Foreign c) → ∀ k out,
      (g.run (scriptText (script ds cmds)) = .ok ⟨k, some out⟩ ↔ ∃ r h n t doc, Session g ds cmds cs r h n ∧
        h.mgr.st.conflictingElementsText r.env.env.root r.env.addr = .ok t ∧
        h.mgr.st.exportDomains r.env.env.root h.mgr.ctx true = .ok doc ∧
        out = g.u.print doc ∧ k = min (if t = [] then n else n + 1) 255) := by
  obtain ⟨cs, hcs, hrun⟩ := (g.commands_criteria ds []).1 hd
  refine ⟨cs, hcs, fun cmds hc k out => ?_⟩
  have hsc := script_commands hw fun c h => (hc c h).1
  rw [GenWorld.run_output]
  have hparse : ∀ st, g.parse (.before []) (inputLines (scriptText (script ds cmds))) = .ok st ↔
      ∃ r m h n, startFramework g.world ⟨false, false, g.validate, true⟩ g.config g.fuel cs = .ok r ∧
        (MOp.setTuningMode true).step r.env r.mgr = (.ok (), m) ∧ Ran g.u r.env ⟨m, g.files⟩ cmds h n ∧
        st = .after r.env h n := by
    intro st
    rw [parse_script g hsc, script, GenWorld.commands_append, hrun, List.nil_append]
    show ((g.command (.before cs) [s "start"]).bind fun st' => g.commands st' cmds) = _ ↔ _
    simp only [GenWorld.command]
    rw [if_neg (by decide), if_pos trivial, Gen.bind_eq_ok]
    constructor
    · rintro ⟨st1, h1, h2⟩
      obtain ⟨r, m, h3, h4, rfl⟩ := g.start_ok.1 h1
      obtain ⟨h', n, h5, rfl⟩ := (g.commands_foreign (fun c h => (hc c h).1) fun c h => (hc c h).2).1 h2
      exact ⟨r, m, h', n, h3, h4, h5, by rw [Nat.zero_add]⟩
    · rintro ⟨r, m, h, n, h3, h4, h5, rfl⟩
      exact ⟨_, g.start_ok.2 ⟨r, m, h3, h4, rfl⟩, (g.commands_foreign (fun c h => (hc c h).1) fun c h => (hc c h).2).2
        ⟨h, n, h5, by rw [Nat.zero_add]⟩⟩
  constructor
  · rintro ⟨st, h1, h2⟩
    obtain ⟨r, m, h, n, h3, h4, h5, rfl⟩ := (hparse st).1 h1
    obtain ⟨t, doc, h6, h7, h8⟩ := g.finish_ok.1 h2
    cases h8
    exact ⟨r, h, n, t, doc, ⟨hcs, h3, m, h4, h5⟩, h6, h7, rfl, rfl⟩
  · rintro ⟨r, h, n, t, doc, hs, h6, h7, rfl, rfl⟩
    obtain ⟨m, h4, h5⟩ := hs.tuning
    exact ⟨_, (hparse _).2 ⟨r, m, h, n, hs.starts, h4, h5, rfl⟩, g.finish_ok.2 ⟨t, doc, h6, h7, rfl⟩⟩

/-- **C89 (criteria).**  If a criterion of a script is not acceptable, nothing is written. -/
theorem C89_criteria (g : GenWorld) {ds : List GenCriterion} (hw : ∀ d ∈ ds, Word d.name ∧ ∀ w ∈ d.values, Word w)
    {d : GenCriterion} (hd : d ∈ ds) (ha : ¬ Acceptable d) {cmds : List (List Str)} (hc : ∀ c ∈ cmds, ScriptCommand c) (k : Nat)
    (out : Str) : g.run (scriptText (script ds cmds)) ≠ .ok ⟨k, some out⟩ := by
  intro h
  obtain ⟨st, h1, -⟩ := g.run_output.1 h
  rw [parse_script g (script_commands hw hc), script, GenWorld.commands_append] at h1
  obtain ⟨st', h2, -⟩ := Gen.bind_eq_ok.1 h1
  exact ha ((g.commands_criteria ds []).2 _ h2 d hd)

/-- **C89 (status).**  Whatever the input, the status is between 0 and 255, and is 1 if nothing is written: the number of errors is
never cut to a smaller one, and success always comes with a document. -/
theorem C89_status (g : GenWorld) {input : Str} {r : GenEnd} (h : g.run input = .ok r) :
    r.status ≤ 255 ∧ (r.output = none → r.status = 1) ∧ (r.status = 0 → ∃ out, r.output = some out) := by
  unfold GenWorld.run at h
  cases hb : (g.parse (.before []) (inputLines input)).bind g.finish with
  | threw => rw [hb] at h; cases h; simp
  | stopped => rw [hb] at h; cases h
  | endless => rw [hb] at h; cases h
  | outside => rw [hb] at h; cases h
  | ok r' =>
    rw [hb] at h
    cases h
    obtain ⟨st, -, hf⟩ := Gen.bind_eq_ok.1 hb
    cases st with
    | before cs => cases hf
    | after e h n =>
      obtain ⟨t, doc, -, -, rfl⟩ := g.finish_ok.1 hf
      exact ⟨Nat.min_le_right _ _, fun h => (by cases h), fun _ => ⟨_, rfl⟩⟩

theorem lines_eq_nil {ts : List Str} : Lines ts = [] ↔ ts = [] := by
  cases ts with
  | nil => simp [Lines]
  | cons t ts => simp [Lines, s]

theorem conflicting_associated {st : St} {p : Pos} (h : Conflicting st p) :
    ∃ q, (∃ d ∈ st.domains, q ∈ d.elems) ∧ Conflicting st q := by
  obtain ⟨d, hd, d', hd', hne, ⟨q, hq, hqp⟩, ⟨q', hq', hqp'⟩⟩ := h
  rcases List.prefix_or_prefix_of_prefix hqp hqp' with hh | hh
  · exact ⟨q', ⟨d', hd', hq'⟩, d, hd, d', hd', hne, ⟨q, hq, hh⟩, ⟨q', hq', List.prefix_rfl⟩⟩
  · exact ⟨q, ⟨d, hd, hq⟩, d, hd, d', hd', hne, ⟨q, hq, List.prefix_rfl⟩, ⟨q', hq', hh⟩⟩

/-- **C89 (conflicts).**  The list of conflicting elements is empty exactly when no element is in two domains. -/
theorem C89_conflicts {env : Env} (wf : env.root.WF) {cs : List Criterion} {st : St} (h : Reachable env cs st) (addr : Pos → Nat) :
    ∃ t, st.conflictingElementsText env.root addr = .ok t ∧ (t = [] ↔ ∀ p, ¬ Conflicting st p) := by
  obtain ⟨ps, ds, -, h2, -, h4⟩ := C73_conflicting wf h addr
  refine ⟨_, h4, ?_⟩
  rw [lines_eq_nil, List.map_eq_nil_iff]
  constructor
  · rintro rfl p hp
    obtain ⟨q, hq⟩ := conflicting_associated hp
    exact absurd ((h2 q).2 hq) (by simp)
  · intro hn
    apply List.eq_nil_iff_forall_not_mem.2
    intro p hp
    exact hn p ((h2 p).1 hp).2

theorem ran_reachable {u : Unmodelled} {e : MEnv} {cs : List Criterion} {h h' : Host} {cmds : List (List Str)} {n : Nat}
    (hr : Ran u e h cmds h' n) (hm : MReachable e cs h.mgr) (hx : RegularScript u e h cmds) : MReachable e cs h'.mgr := by
  have step : ∀ {h h' : Host} {cmd args} {a : Bool × Str}, runCommand u e h cmd args = (some a, h') → MReachable e cs h.mgr →
      (∀ op, Means (u.docs h.files) cmd (args.map fun a => bytesStr (trim (strBytes a))) op → op.Regular e.env.root) →
      MReachable e cs h'.mgr := by
    intro h h' cmd args a hr hm hx
    have hrun : processCommand (mgrHandler u e) h cmd (args.map fun a => bytesStr (trim (strBytes a))) = (some a, h') := by
      unfold runCommand at hr
      exact hr
    have h2 : h' = (processCommand (mgrHandler u e) h cmd (args.map fun a => bytesStr (trim (strBytes a)))).2 := by rw [hrun]
    have h1 : (processCommand (mgrHandler u e) h cmd (args.map fun a => bytesStr (trim (strBytes a)))).1 ≠ none := by
      rw [hrun]; simp
    rw [h2]
    rcases C47_changes u e h cmd (args.map fun a => bytesStr (trim (strBytes a))) with k | ⟨op, hop, k⟩ | ⟨_, _, _, k, _⟩
    · rw [k]; exact hm
    · rw [k]
      exact .step hm (hx op hop) fun ha => h1 ((C47_means u e h _ _ op hop).2.2.2 ha)
    · rw [k]; exact hm
  induction hr with
  | nil h => exact hm
  | done hr _ ih =>
    refine ih (step hr hm hx.1) ?_
    have := hx.2
    rw [hr] at this
    exact this
  | refused hr _ ih =>
    refine ih (step hr hm hx.1) ?_
    have := hx.2
    rw [hr] at this
    exact this

/-- **C89 (states).**  After the commands of a script, the system is in a state that operations reach: every property of those
states holds for what the generator writes. -/
theorem C89_reachable {g : GenWorld} {ds : List GenCriterion} {cmds : List (List Str)} {cs : List Criterion} {r : Started} {h : Host}
    {n : Nat} (hs : Session g ds cmds cs r h n) (hm : MReachable r.env cs r.mgr)
    (hx : RegularScript g.u r.env ⟨((MOp.setTuningMode true).step r.env r.mgr).2, g.files⟩ cmds) :
    MReachable r.env cs h.mgr := by
  obtain ⟨m, h1, h2⟩ := hs.tuning
  rw [h1] at hx
  refine ran_reachable h2 ?_ hx
  have := hm.step (op := .setTuningMode true) trivial (by rw [h1]; simp)
  rw [h1] at this
  exact this

/-- **C89 (verdict).**  If a document is written, the status is 0 exactly when no command was refused and no element is in two
domains. -/
theorem C89_verdict (g : GenWorld) {ds : List GenCriterion} (hd : ∀ d ∈ ds, Acceptable d)
    (hw : ∀ d ∈ ds, Word d.name ∧ ∀ w ∈ d.values, Word w) {cmds : List (List Str)}
    (hc : ∀ c ∈ cmds, ScriptCommand c ∧ Foreign c) {k : Nat} {out : Str}
    (hrun : g.run (scriptText (script ds cmds)) = .ok ⟨k, some out⟩) :
    ∃ cs r h n doc, Session g ds cmds cs r h n ∧ h.mgr.st.exportDomains r.env.env.root h.mgr.ctx true = .ok doc ∧
      out = g.u.print doc ∧
      (r.env.env.root.WF → MReachable r.env cs h.mgr → (k = 0 ↔ n = 0 ∧ ∀ p, ¬ Conflicting h.mgr.st p)) := by
  obtain ⟨cs, -, hg⟩ := C89_generates g hd hw
  obtain ⟨r, h, n, t, doc, h1, h2, h3, h4, h5⟩ := (hg cmds hc k out).1 hrun
  refine ⟨cs, r, h, n, doc, h1, h3, h4, fun wf hm => ?_⟩
  obtain ⟨t', h6, h7⟩ := C89_conflicts wf hm.reachable r.env.addr
  obtain rfl : t = t' := by rw [h2] at h6; cases h6; rfl
  rw [← h7, h5]
  split <;> rename_i ht
  · simp [ht]
  · simp [ht]

/-- **C89 (always).**  When the commands have been run, a document is written, however many of them were refused. -/
theorem C89_written_partial (g : GenWorld) {ds : List GenCriterion} (hd : ∀ d ∈ ds, Acceptable d)
    (hw : ∀ d ∈ ds, Word d.name ∧ ∀ w ∈ d.values, Word w) :
    ∃ cs, AreDeclared ds cs ∧ ∀ cmds, (∀ c ∈ cmds, ScriptCommand c ∧ Foreign c) → ∀ r h n, Session g ds cmds cs r h n →
      r.env.env.root.WF → MReachable r.env cs h.mgr → StringsEnd r.env.env.root h.mgr.st →
      FormatFits r.env.env.root h.mgr.ctx → ∃ doc k, h.mgr.st.exportDomains r.env.env.root h.mgr.ctx true = .ok doc ∧
        g.run (scriptText (script ds cmds)) = .ok ⟨k, some (g.u.print doc)⟩ := by
  obtain ⟨cs, hcs, hg⟩ := C89_generates g hd hw
  refine ⟨cs, hcs, fun cmds hc r h n hs wf hm hstr hf => ?_⟩
  obtain ⟨t, h6, -⟩ := C89_conflicts wf hm.reachable r.env.addr
  obtain ⟨doc, h7⟩ := (C83_documents_partial wf hm hstr hf).1 true
  exact ⟨doc, _, h7, (hg cmds hc _ _).2 ⟨r, h, n, t, doc, hs, h6, h7, rfl, rfl⟩⟩

/-- **C89 (settings).**  A framework with the same structure and criteria of the same definitions, that starts with the generated
document as its settings, has the domains of the generator. -/
theorem C89_settings_partial {g : GenWorld} {ds : List GenCriterion} {cmds : List (List Str)} {cs : List Criterion} {r : Started}
    {h : Host} {n : Nat} (_ : Session g ds cmds cs r h n) (wf : r.env.env.root.WF) (fd : r.env.env.root.FieldsDisjoint)
    (gn : r.env.env.root.GoodNames) (hn : r.env.env.root.name ≠ []) (hrd : ReadsDecimals r.env.env.rd)
    (hm : MReachable r.env cs h.mgr) (hst : ∀ d ∈ h.mgr.st.domains, DomainStorable r.env h.mgr d)
    {doc : Xml} (hdoc : h.mgr.st.exportDomains r.env.env.root h.mgr.ctx true = .ok doc)
    {cs' : List Criterion} (hcs : SameDefinitions cs cs') {w : World} {pol : Policies} {uri : Str} {r' : Started} {cfg : SXml}
    {ps : PluginState} (hstart : Starts w pol uri cs' r' cfg ps (.doc doc)) (hroot : r'.env.env.root = r.env.env.root)
    (hrd' : w.rd = r.env.env.rd) :
    Spec.Alike (SameDomain (SameConfig r.env.env.root)) h.mgr.st.domains r'.mgr.st.domains := 
  (C85_files_partial wf fd gn hn hrd hm hst hcs hdoc hstart hroot hrd').1

/-! ## Samples -/

namespace SampleGenerator

/-- The sample files; a document is shown by the names of the domains. -/
def world (allowed : String) : GenWorld :=
  ⟨⟨fun _ _ _ => [], fun _ _ _ => .succeeded, fun _ => none,
      fun x => x.children.flatMap fun y => (y.attrs.filter (·.1 = s "Name")).flatMap (·.2) ++ s ";", fun _ => true⟩,
    SampleFiles.world (SampleFiles.configuration allowed "5001"), fun _ => none, s "main.xml", false, 1⟩

def criteria : List GenCriterion := [⟨true, s "Device", [s "Speaker", s "Headset"]⟩, ⟨false, s "Mode", [s "Normal", s "Call"]⟩]

/-- The end of the generator, if it ends. -/
def ending (allowed : String) (cmds : List (List Str)) : Option GenEnd :=
  match (world allowed).run (scriptText cmds) with
  | .ok r => some r
  | _ => none

def commands : List (List Str) :=
  [[s "createDomain", s "Out"], [s "addElement", s "Out", s "/audio/amp"], [s "createConfiguration", s "Out", s "Loud"],
   [s "setRule", s "Out", s "Loud", s "All{Device Includes Speaker, Mode Is Normal}"],
   [s "setConfigurationParameter", s "Out", s "Loud", s "/audio/amp/gain", s "5"]]

/-- All succeeds; a command is refused; a parameter is in two domains; tuning is not allowed; a value is declared twice. -/
example :
    ending "true" (script criteria commands) = some ⟨0, some (s "Out;")⟩ ∧
    ending "true" (script criteria (commands ++ [[s "createDomain", s "Out"]])) = some ⟨1, some (s "Out;")⟩ ∧
    ending "true" (script criteria (commands ++ [[s "createDomain", s "In"], [s "addElement", s "In", s "/audio/amp/gain"]])) =
      some ⟨1, some (s "Out;In;")⟩ ∧
    ending "false" (script criteria commands) = some ⟨1, none⟩ ∧
    ending "true" (script [⟨false, s "Mode", [s "Call", s "Call"]⟩] commands) = some ⟨1, none⟩ := by
  decide +kernel

/-- The hypotheses of C89 are met. -/
example : (∀ d ∈ criteria, Acceptable d) ∧ (∀ d ∈ criteria, Word d.name ∧ ∀ w ∈ d.values, Word w) ∧
    (∀ c ∈ commands, ScriptCommand c ∧ Foreign c) ∧
    ∃ cs r h n doc, Session (world "true") criteria commands cs r h n ∧
      h.mgr.st.exportDomains r.env.env.root h.mgr.ctx true = .ok doc := by
  have h1 : ∀ d ∈ criteria, Acceptable d := by
    simp only [criteria, List.mem_cons, List.not_mem_nil, or_false]
    rintro d (rfl | rfl)
    · exact ⟨by simp, ⟨by decide, by decide⟩, by simp⟩
    · exact ⟨by simp, ⟨by decide, by simp⟩, by simp⟩
  have h2 : ∀ d ∈ criteria, Word d.name ∧ ∀ w ∈ d.values, Word w := by unfold Word; decide
  have h3 : ∀ c ∈ commands, ScriptCommand c ∧ Foreign c := by unfold ScriptCommand Word Foreign; decide
  refine ⟨h1, h2, h3, ?_⟩
  have h : ending "true" (script criteria commands) = some ⟨0, some (s "Out;")⟩ := by decide +kernel
  unfold ending at h
  split at h
  · rename_i r hr
    cases h
    obtain ⟨cs, r, h, n, doc, k1, k2, -, -⟩ := C89_verdict _ h1 h2 h3 hr
    exact ⟨cs, r, h, n, doc, k1, k2⟩
  · simp at h

/-- Two criteria of the same name are accepted. -/
example : ending "true" (script (criteria ++ criteria) commands) = some ⟨0, some (s "Out;")⟩ := by decide +kernel

/-- An inclusive criterion with more than 31 values stops the program. -/
example : (match (world "true").run (scriptText (script [⟨true, s "Many", (List.range 32).map fun i => List.replicate i 'x'⟩] [])) with
    | .stopped => true
    | _ => false) = true := by decide +kernel

/-- A criterion that is created after the start stops the program. -/
example : (match (world "true").run (scriptText (script [] [GenCriterion.command ⟨true, s "Late", [s "Value"]⟩])) with
    | .stopped => true
    | _ => false) = true := by decide +kernel

end SampleGenerator

end PF
