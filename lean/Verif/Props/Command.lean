import Verif.Lemmas.Command
import Verif.Spec.Manager

/-! # Properties of the commands (C47) -/

namespace PF
open Spec

/-! ## Dispatch, for any table of commands -/

/-- **C47 (unknown).**  A command that is not registered is not executed: the state does not change, and
a failure is answered. -/
theorem C47_unknown {σ : Type} (t : List (CmdItem σ)) (x : σ) (cmd : Str) (args : List Str)
    (h : ∀ it ∈ t, it.name ≠ cmd) :
    processCommand t x cmd args = (some (false, s "Command not found!\nUse \"help\" to show available commands"), x) := by
  simp [processCommand, findCommand_none.2 h]

/-- **C47 (arguments).**  A command with fewer arguments than its minimum is not executed: the state does
not change, and its usage is answered as a failure. -/
theorem C47_too_few {σ : Type} (t : List (CmdItem σ)) (hn : (t.map (·.name)).Nodup) (it : CmdItem σ) (hit : it ∈ t)
    (hh : it.name ≠ s "help") (x : σ) (args : List Str) (h : args.length < it.minArgs) :
    processCommand t x it.name args =
      (some (false, s "Not enough arguments supplied\nUsage:\n" ++ it.name ++ s " " ++ it.help), x) := by
  simp [processCommand, findCommand_mem hn hit, hh, CmdItem.parse, h, CmdItem.usage]

/-- **C47 (execution).**  A registered command with enough arguments is executed once; it succeeds when
its parser says so, with the answer `Done` or the result of the parser, and fails otherwise. -/
theorem C47_executed {σ : Type} (t : List (CmdItem σ)) (hn : (t.map (·.name)).Nodup) (it : CmdItem σ) (hit : it ∈ t)
    (hh : it.name ≠ s "help") (f : σ → List Str → Option (CmdStatus × Str) × σ) (hf : it.parser = some f) (x : σ)
    (args : List Str) (h : it.minArgs ≤ args.length) :
    (processCommand t x it.name args).2 = (f x args).2 ∧
    (∀ r, (f x args).1 = some (.done, r) → (processCommand t x it.name args).1 = some (true, s "Done")) ∧
    (∀ r, (f x args).1 = some (.succeeded, r) → (processCommand t x it.name args).1 = some (true, r)) ∧
    (∀ r, (f x args).1 = some (.failed, r) → (processCommand t x it.name args).1 = some (false, r)) ∧
    (∀ r, (f x args).1 = some (.showUsage, r) →
      (processCommand t x it.name args).1 = some (false, it.name ++ s " " ++ it.help)) ∧
    ((f x args).1 = none → (processCommand t x it.name args).1 = none) := by
  have hlt : ¬ args.length < it.minArgs := by omega
  simp only [processCommand, findCommand_mem hn hit, hh, CmdItem.parse, hlt, ite_false, hf]
  refine ⟨trivial, ?_, ?_, ?_, ?_, ?_⟩
  all_goals
    intros
    simp_all [CmdStatus.reply, CmdItem.usage]

/-- **C47 (registration).**  The names of the commands of a handler stay distinct: a second command with
a name that exists is refused and changes nothing; a new name is added after the others. -/
theorem C47_registration {σ : Type} (t : List (CmdItem σ)) (it : CmdItem σ) :
    ((∃ it' ∈ t, it'.name = it.name) → addCommand t it = (false, t)) ∧
    ((∀ it' ∈ t, it'.name ≠ it.name) → addCommand t it = (true, t ++ [it])) := by
  constructor
  · rintro ⟨it', h1, h2⟩
    unfold addCommand
    cases h : findCommand t it.name with
    | none => exact absurd h2 (findCommand_none.1 h it' h1)
    | some _ => rfl
  · intro h
    simp [addCommand, findCommand_none.2 h]

/-- Whatever is registered, names are distinct. -/
theorem C47_names_distinct {σ : Type} (items : List (CmdItem σ)) : ((createHandler items).map (·.name)).Nodup := by
  unfold createHandler
  have : ∀ t : List (CmdItem σ), (t.map (·.name)).Nodup →
      ((items.foldl (fun t it => (addCommand t it).2) t).map (·.name)).Nodup := by
    induction items with
    | nil => intro t ht; exact ht
    | cons a items ih =>
      intro t ht
      simp only [List.foldl_cons]
      apply ih
      by_cases h : ∃ it' ∈ t, it'.name = a.name
      · rw [(C47_registration t a).1 h]; exact ht
      · have h' : ∀ it' ∈ t, it'.name ≠ a.name := fun it' h1 h2 => h ⟨it', h1, h2⟩
        rw [(C47_registration t a).2 h']
        simp only [List.map_append, List.nodup_append]
        refine ⟨ht, by simp, ?_⟩
        intro x hx y hy
        simp only [List.map_cons, List.map_nil, List.mem_singleton] at hy
        subst hy
        obtain ⟨it', h1, rfl⟩ := List.mem_map.1 hx
        exact h' it' h1
  apply this
  show ([s "help"] : List Str).Nodup
  simp

/-- **C47 (help).**  The command `help` succeeds, changes nothing, and shows one line for each command:
its usage, at least five spaces, and its description, the descriptions being aligned. -/
theorem C47_help {σ : Type} (t : List (CmdItem σ)) (x : σ) (args : List Str) (h : ∃ it ∈ t, it.name = s "help") :
    ∃ w : Nat, processCommand t x (s "help") args = (some (true, t.flatMap fun it =>
        it.name ++ s " " ++ it.help ++ List.replicate (w - it.usage.length) ' ' ++ s "=> " ++ it.description ++ s "\n"), x) ∧
      ∀ it ∈ t, it.usage.length + 5 ≤ w := by
  refine ⟨maxUsage t + 5, ?_, ?_⟩
  · unfold processCommand
    cases hf : findCommand t (s "help") with
    | none =>
      obtain ⟨it, h1, h2⟩ := h
      exact absurd h2 (findCommand_none.1 hf it h1)
    | some _ => simp [helpText, CmdItem.usage]
  · intro it hit
    have := (foldl_max_le t 0).2 it hit
    unfold maxUsage
    omega

/-- Three commands, two of them with the same name; the state is a counter. -/
example :
    let inc : CmdItem Nat := ⟨s "inc", 1, s "<word>", s "count", some fun n _ => (some (.done, []), n + 1)⟩
    let dup : CmdItem Nat := ⟨s "inc", 0, [], [], some fun n _ => (some (.failed, []), n + 7)⟩
    let get : CmdItem Nat := ⟨s "get", 0, [], s "show", some fun n _ => (some (.succeeded, natText n), n)⟩
    let t := createHandler [inc, dup, get]
    t.length = 3 ∧ processCommand t 4 (s "inc") [s "x"] = (some (true, s "Done"), 5) ∧
      (processCommand t 4 (s "inc") []).2 = 4 ∧ processCommand t 4 (s "get") [] = (some (true, s "4"), 4) ∧
      (processCommand t 4 (s "dec") []).1.map (·.1) = some false := by decide +kernel

/-! ## The commands of the manager -/

/-- **C47 (table).**  The handler of the manager has `help` and all the commands of the table, with
distinct names. -/
theorem C47_table (u : Unmodelled) (e : MEnv) :
    (mgrHandler u e).map (·.name) = s "help" :: commandTable.map (·.name) ∧
    ((mgrHandler u e).map (·.name)).Nodup := by
  have h : (mgrHandler u e).map (·.name) = s "help" :: commandTable.map (·.name) := by
    rw [mgrHandler_eq, List.map_cons, List.map_map]
    rfl
  exact ⟨h, by rw [h]; exact table_names⟩

/-- **C47 (meaning).**  A command that means an operation does this operation once: the new state is that
of the operation; the answer is `Done` if the operation succeeds, and a failure if it fails. -/
theorem C47_means (u : Unmodelled) (e : MEnv) (h : Host) (cmd : Str) (args : List Str) (op : MOp)
    (hop : Means (u.docs h.files) cmd args op) :
    (processCommand (mgrHandler u e) h cmd args).2 = { h with mgr := (op.step e h.mgr).2 } ∧
    ((op.step e h.mgr).1 = .ok () → (processCommand (mgrHandler u e) h cmd args).1 = some (true, s "Done")) ∧
    ((op.step e h.mgr).1 = .err → ∃ t, (processCommand (mgrHandler u e) h cmd args).1 = some (false, t)) ∧
    ((op.step e h.mgr).1 = .abort → (processCommand (mgrHandler u e) h cmd args).1 = none) := by
  obtain ⟨c, hc, rfl, hmin, hx⟩ := means_table hop
  obtain ⟨f, -, h1, h2⟩ := process_mgr u e h hc args hmin
  have hf : f h args = u.perform e c.name h args (.op op) := by
    rw [h2]
    rcases hx with ⟨g, ha, hg⟩ | ⟨g, ha, hg⟩ <;> rw [ha] <;> simp only [hg]
  obtain ⟨p1, p2, p3, p4⟩ := perform_op u e c.name h args op
  rw [h1, hf]
  refine ⟨p1, fun ho => by simp [p2 ho, CmdStatus.reply], fun ho => ?_, fun ho => by simp [p4.1 ho]⟩
  obtain ⟨t, ht⟩ := p3 ho
  exact ⟨t, by simp [ht, CmdStatus.reply]⟩

example (u : Unmodelled) (e : MEnv) (h : Host) :
    Means (u.docs h.files) (s "setParameter") [s "/Sys/gain", s "1", s "2"] (.setParameter (s "/Sys/gain") (s "1 2")) ∧
    (processCommand (mgrHandler u e) h (s "setValueSpace") [s "raw"]) =
      (some (true, s "Done"), { h with mgr := { h.mgr with raw := true } }) := by
  refine ⟨?_, ?_⟩
  · have := Means.setParameter (w := u.docs h.files) (s "/Sys/gain") (s "1") [s "2"]
    have he : joinWith ' ' (s "1" :: [s "2"]) = s "1 2" := by decide +kernel
    rwa [he] at this
  · have := C47_means u e h _ _ _ (Means.raw [])
    exact Prod.ext (this.2.1 rfl) this.1

/-- A command on a document: the file of that name contains a document without domains. -/
example (u : Unmodelled) (hu : u.parse (s "<d/>") = some (.mk (s "ConfigurableDomains") [] [] [])) :
    Means (u.docs fun f => if f = s "x.xml" then some (s "<d/>") else none) (s "importDomainsXML") [s "x.xml"]
      (.importDomains false (.mk (s "ConfigurableDomains") [] [] [])) :=
  .importDomains _ _ [] (by simp [Unmodelled.docs, hu])

/-- **C47 (no document).**  An import of a text or of a file that is not a document (or does not exist) is
answered as a failure, and changes nothing. -/
theorem C47_unreadable (u : Unmodelled) (e : MEnv) (h : Host) (cmd : Str) (args : List Str)
    (hx : Unreadable (u.docs h.files) cmd args) :
    ∃ t, processCommand (mgrHandler u e) h cmd args = (some (false, t), h) := by
  obtain ⟨c, hc, rfl, hmin, g, ha, hg⟩ := unreadable_table hx
  obtain ⟨f, -, h1, h2⟩ := process_mgr u e h hc args hmin
  rw [h1, h2, ha]
  simp only [hg, Unmodelled.perform]
  exact ⟨_, rfl⟩

example (u : Unmodelled) : Unreadable (u.docs fun _ => none) (s "importDomainWithSettingsXML") [s "x.xml", s "overwrite"] :=
  .importDomainOver _ [] rfl

/-- **C47 (reading).**  A command that reads changes nothing and answers the value. -/
theorem C47_reads (u : Unmodelled) (e : MEnv) (h : Host) (cmd : Str) (args : List Str) (v : MEnv → Mgr → Out Str)
    (hr : Reads u.print cmd args v) :
    (processCommand (mgrHandler u e) h cmd args).2 = h ∧
    (∀ t, v e h.mgr = .ok t → (processCommand (mgrHandler u e) h cmd args).1 = some (true, t)) ∧
    (v e h.mgr = .err → ∃ t, (processCommand (mgrHandler u e) h cmd args).1 = some (false, t)) ∧
    (v e h.mgr = .abort → (processCommand (mgrHandler u e) h cmd args).1 = none) := by
  obtain ⟨c, hc, rfl, hmin, hx⟩ := reads_table hr
  obtain ⟨f, -, h1, h2⟩ := process_mgr u e h hc args hmin
  have hf : f h args = (u.answer c.name h args (v e h.mgr), h) := by
    rw [h2]
    rcases hx with ⟨g, ha, hg⟩ | ⟨f', g, ha, hfa, hg⟩ | ⟨g, ha, hg⟩ | ⟨f', g, ha, hfa, hg⟩ <;> rw [ha]
    · simp only [hg]
    · simp only [hfa, hg]
    · simp only [hg]
    · simp only [hfa, hg]
  rw [h1, hf]
  refine ⟨rfl, fun t ho => ?_, fun ho => ?_, fun ho => ?_⟩ <;> simp [ho, Unmodelled.answer, CmdStatus.reply]

example (print : Xml → Str) :
    Reads print (s "getParameter") [s "/Sys/gain"] (fun e m => m.getParameter e (s "/Sys/gain")) ∧
    Reads print (s "listCriteria") [s "xml"] (fun _ m => .ok (print (criteriaXml m.st.criteria))) :=
  ⟨.parameter _ [], .criteriaXml _ (by decide +kernel)⟩

/-- **C47 (files).**  A command that exports changes nothing but the file that it names, which it replaces with
the document; nothing at all if there is no document or the file cannot be written, and a failure is answered
then. -/
theorem C47_exports (u : Unmodelled) (e : MEnv) (h : Host) (cmd : Str) (args : List Str) (file : Str)
    (doc : MEnv → Mgr → Out Xml) (hx : Exports cmd args file doc) :
    (∀ x, doc e h.mgr = .ok x → u.writable file = true →
      processCommand (mgrHandler u e) h cmd args =
        (some (true, s "Done"), ⟨h.mgr, fun f => if f = file then some (u.print x) else h.files f⟩)) ∧
    (doc e h.mgr = .err ∨ (∃ x, doc e h.mgr = .ok x) ∧ u.writable file = false →
      ∃ t, processCommand (mgrHandler u e) h cmd args = (some (false, t), h)) ∧
    (doc e h.mgr = .abort → (processCommand (mgrHandler u e) h cmd args).1 = none) := by
  obtain ⟨c, hc, rfl, hmin, g, g', ha, hg, hd⟩ := exports_table hx
  obtain ⟨f, -, h1, h2⟩ := process_mgr u e h hc args hmin
  have hf : f h args = u.export c.name h args file (doc e h.mgr) := by
    rw [h2, ha]; simp only [hg, hd]
  rw [h1, hf]
  refine ⟨fun x ho hw => ?_, ?_, fun ho => ?_⟩
  · simp only [ho, Unmodelled.export, hw, if_true]
    rfl
  · rintro (ho | ⟨⟨x, ho⟩, hw⟩)
    · exact ⟨u.text c.name h.mgr args, by simp [ho, Unmodelled.export, CmdStatus.reply]⟩
    · exact ⟨u.text c.name h.mgr args, by simp [ho, hw, Unmodelled.export, CmdStatus.reply]⟩
  · simp [ho, Unmodelled.export]

/-- **C47 (nothing else).**  A command changes the manager only if it means an operation, and then as the
operation does; it changes a file only if it exports to this file, and nothing in the manager then. -/
theorem C47_changes (u : Unmodelled) (e : MEnv) (h : Host) (cmd : Str) (args : List Str) :
    (processCommand (mgrHandler u e) h cmd args).2 = h ∨
    (∃ op, Means (u.docs h.files) cmd args op ∧
      (processCommand (mgrHandler u e) h cmd args).2 = { h with mgr := (op.step e h.mgr).2 }) ∨
    (∃ file doc, Exports cmd args file doc ∧ (processCommand (mgrHandler u e) h cmd args).2.mgr = h.mgr ∧
      ∀ f, f ≠ file → (processCommand (mgrHandler u e) h cmd args).2.files f = h.files f) := by
  cases hf : findCommand (mgrHandler u e) cmd with
  | none => left; simp [processCommand, hf]
  | some it =>
    by_cases hh : cmd = s "help"
    · left; subst hh; simp [processCommand, hf]
    rcases findCommand_mgr_some hf with h' | ⟨c, hc, rfl, rfl⟩
    · exact absurd h' hh
    by_cases hmin : c.minArgs ≤ args.length
    case neg =>
      left
      have : args.length < (c.item u e).minArgs := by show args.length < c.minArgs; omega
      simp [processCommand, hf, hh, CmdItem.parse, this]
    obtain ⟨g, -, h1, h2⟩ := process_mgr u e h hc args hmin
    have hok := table_ok c hc
    unfold Command.Ok at hok
    rw [h1, h2]
    cases ha : c.action with
    | op f =>
      rw [ha] at hok
      simp only at hok ⊢
      cases hfa : f args with
      | usage => left; rfl
      | outside => left; rfl
      | refused => left; rfl
      | op o => exact .inr (.inl ⟨o, (hok args hmin).1 _ o hfa, (perform_op u e c.name h args o).1⟩)
    | imports f =>
      rw [ha] at hok
      simp only at hok ⊢
      cases hfa : f (u.docs h.files) args with
      | usage => left; rfl
      | outside => left; rfl
      | refused => left; rfl
      | op o => exact .inr (.inl ⟨o, (hok _ args hmin).1 o hfa, (perform_op u e c.name h args o).1⟩)
    | get f => left; rfl
    | shows f => left; rfl
    | ask f =>
      left
      simp only
      cases f args <;> rfl
    | exports file f =>
      rw [ha] at hok
      simp only at hok ⊢
      obtain ⟨fl, doc, k1, k2, k3⟩ := hok args hmin
      simp only [k1, k3]
      right; right
      refine ⟨fl, doc, k2, ?_⟩
      cases doc e h.mgr with
      | err => exact ⟨rfl, fun _ _ => rfl⟩
      | abort => exact ⟨rfl, fun _ _ => rfl⟩
      | ok x =>
        simp only [Unmodelled.export]
        split
        · refine ⟨rfl, fun f hne => ?_⟩
          simp [Files.write, hne]
        · exact ⟨rfl, fun _ _ => rfl⟩
    | list => left; rfl

/-- **C47 (stops).**  A command stops the program only if the operation, the read or the export that it asks
for does, except `setSequenceAwareness` with less than two arguments. -/
theorem C47_stops_partial (u : Unmodelled) (e : MEnv) (h : Host) (cmd : Str) (args : List Str)
    (hs : cmd ≠ s "setSequenceAwareness" ∨ 2 ≤ args.length) (h0 : (processCommand (mgrHandler u e) h cmd args).1 = none) :
    (∃ op, Means (u.docs h.files) cmd args op ∧ (op.step e h.mgr).1 = .abort) ∨
    (∃ v, Reads u.print cmd args v ∧ v e h.mgr = .abort) ∨
    (∃ file doc, Exports cmd args file doc ∧ doc e h.mgr = .abort) := by
  have hans : ∀ {name : Str} {o : Out Str}, u.answer name h args o = none → o = .abort := by
    intro name o ho
    cases o <;> simp [Unmodelled.answer] at ho ⊢
  cases hf : findCommand (mgrHandler u e) cmd with
  | none => simp [processCommand, hf] at h0
  | some it =>
    by_cases hh : cmd = s "help"
    · subst hh; simp [processCommand, hf] at h0
    rcases findCommand_mgr_some hf with h' | ⟨c, hc, rfl, rfl⟩
    · exact absurd h' hh
    by_cases hmin : c.minArgs ≤ args.length
    case neg =>
      have : args.length < (c.item u e).minArgs := by show args.length < c.minArgs; omega
      simp [processCommand, hf, hh, CmdItem.parse, this] at h0
    obtain ⟨g, -, h1, h2⟩ := process_mgr u e h hc args hmin
    have hok := table_ok c hc
    unfold Command.Ok at hok
    rw [h1] at h0
    simp only [Option.map_eq_none_iff] at h0
    rw [h2] at h0
    cases ha : c.action with
    | op f =>
      rw [ha] at hok h0
      simp only at hok h0
      cases hfa : f args with
      | usage => simp [hfa, Unmodelled.perform] at h0
      | outside => exact absurd hs (by have := (hok args hmin).2 hfa; simp only [this.1, ne_eq, not_true_eq_false, false_or]; omega)
      | refused => simp [hfa, Unmodelled.perform] at h0
      | op o =>
        rw [hfa] at h0
        exact .inl ⟨o, (hok args hmin).1 _ o hfa, (perform_op u e c.name h args o).2.2.2.2 h0⟩
    | imports f =>
      rw [ha] at hok h0
      simp only at hok h0
      cases hfa : f (u.docs h.files) args with
      | usage => simp [hfa, Unmodelled.perform] at h0
      | outside => exact absurd hfa (hok _ args hmin).2
      | refused => simp [hfa, Unmodelled.perform] at h0
      | op o =>
        rw [hfa] at h0
        exact .inl ⟨o, (hok _ args hmin).1 o hfa, (perform_op u e c.name h args o).2.2.2.2 h0⟩
    | get f =>
      rw [ha] at hok h0
      simp only at hok h0
      obtain ⟨v, hv, hfv⟩ := hok u.print args hmin
      rw [hfv] at h0
      exact .inr (.inl ⟨v, hv, hans h0⟩)
    | shows f =>
      rw [ha] at hok h0
      simp only at hok h0
      obtain ⟨v, hv, hfv⟩ := hok u.print args hmin
      rw [hfv] at h0
      exact .inr (.inl ⟨v, hv, hans h0⟩)
    | ask f =>
      rw [ha] at hok h0
      simp only at hok h0
      cases hfa : f args with
      | usage => simp [hfa] at h0
      | read g =>
        simp only [hfa] at h0
        obtain ⟨v, hv, hfv⟩ := (hok u.print args hmin).1 g hfa
        rw [hfv] at h0
        exact .inr (.inl ⟨v, hv, hans h0⟩)
      | shows g =>
        simp only [hfa] at h0
        obtain ⟨v, hv, hfv⟩ := (hok u.print args hmin).2 g hfa
        rw [hfv] at h0
        exact .inr (.inl ⟨v, hv, hans h0⟩)
    | exports file f =>
      rw [ha] at hok h0
      simp only at hok h0
      obtain ⟨fl, doc, k1, k2, k3⟩ := hok args hmin
      simp only [k1, k3] at h0
      cases hd : doc e h.mgr with
      | ok x =>
        simp only [hd, Unmodelled.export] at h0
        split at h0 <;> simp at h0
      | err => simp [hd, Unmodelled.export] at h0
      | abort => exact .inr (.inr ⟨fl, doc, k2, hd⟩)
    | list => rw [ha] at h0; simp at h0

/-- `setSequenceAwareness` with one argument, which is the minimum that it declares, reads an argument
that does not exist: the property fails here. -/
theorem C47_sequence_awareness_outside (u : Unmodelled) (e : MEnv) (h : Host) (d : Str) :
    processCommand (mgrHandler u e) h (s "setSequenceAwareness") [d] = (none, h) := by
  have hc : ∃ c, commandTable[18]? = some c ∧ c.name = s "setSequenceAwareness" ∧ c.minArgs = 1 ∧
    c.action = .op setSequenceAwarenessArgs := ⟨_, rfl, rfl, rfl, rfl⟩
  obtain ⟨c, h0, hn, hmin, ha⟩ := hc
  obtain ⟨g, -, h1, h2⟩ := process_mgr u e h (List.mem_of_getElem? h0) [d] (by simp [hmin])
  rw [ha] at h2
  rw [hn] at h1
  rw [h1, h2]
  rfl

/-- **C47 (sessions).**  Whatever requests a remote client sends, the manager stays in a state that its own
operations can reach: every property of the reachable states of the manager holds for remote sessions.  The
documents that are imported have to meet what the schema asks of names. -/
theorem C47_remote_reachable (u : Unmodelled) (e : MEnv) (criteria : List Criterion) (h : Host)
    (hm : MReachable e criteria h.mgr) (rs : List Request) (hx : RegularSession u e h rs)
    (hclosed : (handleAll (remoteCommand u e) h rs).2.2 = .closed) :
    MReachable e criteria (handleAll (remoteCommand u e) h rs).1.mgr := by
  induction rs generalizing h with
  | nil => exact hm
  | cons r rs ih =>
    simp only [handleAll] at hclosed ⊢
    cases hr : (remoteCommand u e h r).1 with
    | none => rw [hr] at hclosed; simp at hclosed
    | some a =>
      rw [hr] at hclosed
      simp only at hclosed ⊢
      refine ih _ ?_ hx.2 hclosed
      have hsome : (processCommand (mgrHandler u e) h (bytesStr r.command) (r.arguments.map bytesStr)).1 ≠ none := by
        intro h0
        simp [remoteCommand, h0] at hr
      simp only [remoteCommand]
      rcases C47_changes u e h (bytesStr r.command) (r.arguments.map bytesStr) with k | ⟨op, hop, k⟩ | ⟨_, _, _, k, _⟩
      · rw [k]; exact hm
      · rw [k]
        refine .step hm (hx.1 op hop) fun ha => hsome ?_
        exact (C47_means u e h _ _ op hop).2.2.2 ha
      · rw [k]; exact hm

/-- A session on the sample manager: a domain is created, a request with too few arguments and an unknown
one are refused; the domains are written to a file; the import of a file that does not exist fails. -/
example :
    let u : Unmodelled := ⟨fun _ _ _ => [], fun _ _ _ => .succeeded, fun _ => none, fun x => x.tag, fun _ => true⟩
    let rs : List Request := [⟨strBytes (s "createDomain"), [strBytes (s "New")]⟩, ⟨strBytes (s "createDomain"), []⟩,
      ⟨strBytes (s "destroy"), []⟩, ⟨strBytes (s "getTuningMode"), []⟩,
      ⟨strBytes (s "exportDomainsXML"), [strBytes (s "f.xml")]⟩, ⟨strBytes (s "importDomainsXML"), [strBytes (s "g.xml")]⟩]
    let r := handleAll (remoteCommand u Sample.menv) ⟨Sample.mgr, fun _ => none⟩ rs
    r.2.2 = .closed ∧ r.1.mgr.st.domains.length = 3 ∧ r.2.1.map (·.success) = [true, false, false, true, true, false] ∧
      r.1.files (s "f.xml") = some (s "ConfigurableDomains") ∧ r.1.files (s "g.xml") = none := by decide +kernel

/-- No document at all can be read: every session is regular. -/
example (text : Str → Mgr → List Str → Str) (status : Str → Mgr → List Str → CmdStatus) (print : Xml → Str)
    (writable : Str → Bool) (e : MEnv) (host : Host) (rs : List Request) :
    RegularSession ⟨text, status, fun _ => none, print, writable⟩ e host rs := by
  induction rs generalizing host with
  | nil => trivial
  | cons r rs ih =>
    refine ⟨fun op hop => ?_, ih _⟩
    generalize bytesStr r.command = cmd at hop
    generalize r.arguments.map bytesStr = args at hop
    cases hop with
    | importDomains f x r h => simp [Unmodelled.docs] at h
    | importDomainsSettings f x r h => simp [Unmodelled.docs] at h
    | importDomain f x h => simp [Unmodelled.docs] at h
    | importDomainOver f x r h => simp [Unmodelled.docs] at h
    | setDomains t x r h => simp [Unmodelled.docs] at h
    | setDomain t x h => simp [Unmodelled.docs] at h
    | setDomainOver t x r h => simp [Unmodelled.docs] at h
    | _ => exact trivial

end PF
