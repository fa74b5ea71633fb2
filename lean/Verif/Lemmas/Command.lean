import Verif.Spec.Command
import Verif.Lemmas.DomainInv

/-! # Lemmas on commands -/

namespace PF
open Spec

theorem findCommand_none {σ : Type} {t : List (CmdItem σ)} {name : Str} :
    findCommand t name = none ↔ ∀ it ∈ t, it.name ≠ name := by
  simp [findCommand, List.find?_eq_none]

theorem findCommand_some {σ : Type} {t : List (CmdItem σ)} {name : Str} {it : CmdItem σ}
    (h : findCommand t name = some it) : it ∈ t ∧ it.name = name := by
  unfold findCommand at h
  exact ⟨List.mem_of_find?_eq_some h, by simpa using List.find?_some h⟩

theorem findCommand_mem {σ : Type} {t : List (CmdItem σ)} (hn : (t.map (·.name)).Nodup) {it : CmdItem σ}
    (h : it ∈ t) : findCommand t it.name = some it := by
  induction t with
  | nil => simp at h
  | cons a t ih =>
    simp only [List.map_cons, List.nodup_cons] at hn
    rcases List.mem_cons.1 h with rfl | h
    · simp [findCommand]
    · have : a.name ≠ it.name := fun he => hn.1 (he ▸ List.mem_map_of_mem h)
      have := ih hn.2 h
      simp_all [findCommand]

theorem foldl_addCommand {σ : Type} (items : List (CmdItem σ)) (t : List (CmdItem σ))
    (hn : ((t ++ items).map (·.name)).Nodup) :
    items.foldl (fun t it => (addCommand t it).2) t = t ++ items := by
  induction items generalizing t with
  | nil => simp
  | cons a items ih =>
    simp only [List.foldl_cons]
    have hnone : findCommand t a.name = none := by
      rw [findCommand_none]
      intro it hit he
      simp only [List.map_append, List.map_cons, List.nodup_append] at hn
      exact hn.2.2 it.name (List.mem_map_of_mem hit) a.name (by simp) he
    have : (addCommand t a).2 = t ++ [a] := by simp [addCommand, hnone]
    rw [this, ih]
    · simp
    · simpa using hn

theorem createHandler_eq {σ : Type} (items : List (CmdItem σ)) (hn : (s "help" :: items.map (·.name)).Nodup) :
    createHandler items = helpItem σ :: items := by
  unfold createHandler
  have : (addCommand [] (helpItem σ)).2 = [helpItem σ] := rfl
  rw [this, foldl_addCommand]
  · rfl
  · simpa [helpItem] using hn

theorem foldl_max_le {σ : Type} (t : List (CmdItem σ)) (n : Nat) :
    n ≤ t.foldl (fun n it => if it.usage.length > n then it.usage.length else n) n ∧
    ∀ it ∈ t, it.usage.length ≤ t.foldl (fun n it => if it.usage.length > n then it.usage.length else n) n := by
  induction t generalizing n with
  | nil => simp
  | cons a t ih =>
    simp only [List.foldl_cons]
    have h1 := ih (if a.usage.length > n then a.usage.length else n)
    have hn : n ≤ (if a.usage.length > n then a.usage.length else n) := by split <;> omega
    have ha : a.usage.length ≤ (if a.usage.length > n then a.usage.length else n) := by split <;> omega
    refine ⟨Nat.le_trans hn h1.1, ?_⟩
    intro it hit
    rcases List.mem_cons.1 hit with rfl | hit
    · exact Nat.le_trans ha h1.1
    · exact h1.2 it hit

theorem table_names : (s "help" :: commandTable.map (·.name)).Nodup := by decide +kernel

theorem mgrHandler_eq (u : Unmodelled) (e : MEnv) :
    mgrHandler u e = helpItem Host :: commandTable.map (Command.item u e) := by
  unfold mgrHandler
  apply createHandler_eq
  rw [List.map_map]
  exact table_names

theorem findCommand_mgr (u : Unmodelled) (e : MEnv) {c : Command} (hc : c ∈ commandTable) :
    findCommand (mgrHandler u e) c.name = some (c.item u e) ∧ c.name ≠ s "help" := by
  have hn := table_names
  constructor
  · apply findCommand_mem (it := c.item u e)
    · rw [mgrHandler_eq]
      simp only [List.map_cons, List.map_map]
      exact hn
    · rw [mgrHandler_eq]
      exact List.mem_cons_of_mem _ (List.mem_map_of_mem hc)
  · rintro he
    rw [List.nodup_cons] at hn
    exact hn.1 (he ▸ List.mem_map_of_mem hc)

theorem findCommand_mgr_some {u : Unmodelled} {e : MEnv} {cmd : Str} {it : CmdItem Host}
    (h : findCommand (mgrHandler u e) cmd = some it) :
    cmd = s "help" ∨ ∃ c ∈ commandTable, it = c.item u e ∧ c.name = cmd := by
  obtain ⟨hm, hn⟩ := findCommand_some h
  rw [mgrHandler_eq] at hm
  rcases List.mem_cons.1 hm with rfl | hm
  · exact .inl hn.symm
  · obtain ⟨c, hc, rfl⟩ := List.mem_map.1 hm
    exact .inr ⟨c, hc, rfl, hn⟩

/-- What an operation answers. -/
theorem perform_op (u : Unmodelled) (e : MEnv) (name : Str) (h : Host) (args : List Str) (o : MOp) :
    (u.perform e name h args (.op o)).2 = { h with mgr := (o.step e h.mgr).2 } ∧
    ((o.step e h.mgr).1 = .ok () → (u.perform e name h args (.op o)).1 = some (.done, [])) ∧
    ((o.step e h.mgr).1 = .err → ∃ t, (u.perform e name h args (.op o)).1 = some (.failed, t)) ∧
    ((o.step e h.mgr).1 = .abort ↔ (u.perform e name h args (.op o)).1 = none) := by
  simp only [Unmodelled.perform]
  refine ⟨trivial, ?_, ?_, ?_⟩
  · intro ho; simp [ho]
  · intro ho; simp [ho]
  · cases ho : (o.step e h.mgr).1 <;> simp

/-- A command of the table with enough arguments. -/
theorem process_mgr (u : Unmodelled) (e : MEnv) (h : Host) {c : Command} (hc : c ∈ commandTable) (args : List Str)
    (hmin : c.minArgs ≤ args.length) :
    ∃ f, (c.item u e).parser = some f ∧
      processCommand (mgrHandler u e) h c.name args =
        ((f h args).1.map fun r => r.1.reply (c.item u e).usage r.2, (f h args).2) ∧
      f h args =
        (match c.action with
        | .op f => u.perform e c.name h args (f args)
        | .imports f => u.perform e c.name h args (f (u.docs h.files) args)
        | .get f => (u.answer c.name h args (f e h.mgr args), h)
        | .shows f => (u.answer c.name h args ((f e h.mgr args).bind fun x => .ok (u.print x)), h)
        | .ask f =>
          match f args with
          | .usage => (some (.showUsage, []), h)
          | .read g => (u.answer c.name h args (g e h.mgr), h)
          | .shows g => (u.answer c.name h args ((g e h.mgr).bind fun x => .ok (u.print x)), h)
        | .exports file f =>
          match file args with
          | none => (none, h)
          | some file => u.export c.name h args file (f e h.mgr args)
        | .list => (some (u.status c.name h.mgr args, u.text c.name h.mgr args), h)) := by
  obtain ⟨hf, hne⟩ := findCommand_mgr u e hc
  refine ⟨_, rfl, ?_, rfl⟩
  have : ¬ args.length < (c.item u e).minArgs := by show ¬ args.length < c.minArgs; omega
  simp only [processCommand, hf, hne, if_false, CmdItem.parse, this]
  rfl

theorem joinTexts_eq (l : List Str) : joinTexts (s " ") l = joinWith ' ' l := by
  induction l with
  | nil => rfl
  | cons a l ih =>
    cases l with
    | nil => rfl
    | cons b l => rw [joinTexts, ih]; simp [joinWith, s]

/-- The entry of the table for a command that has a meaning. -/
theorem means_table {w : Docs} {cmd : Str} {args : List Str} {op : MOp} (h : Means w cmd args op) :
    ∃ c, c ∈ commandTable ∧ c.name = cmd ∧ c.minArgs ≤ args.length ∧
      ((∃ f, c.action = .op f ∧ f args = .op op) ∨ ∃ f, c.action = .imports f ∧ f w args = .op op) := by
  cases h with
  | tuningOn => exact ⟨_, List.mem_of_getElem? (i := 2) rfl, rfl, by simp, .inl ⟨_, rfl, rfl⟩⟩
  | tuningOff => exact ⟨_, List.mem_of_getElem? (i := 2) rfl, rfl, by simp, .inl ⟨_, rfl, rfl⟩⟩
  | raw => exact ⟨_, List.mem_of_getElem? (i := 4) rfl, rfl, by simp, .inl ⟨_, rfl, rfl⟩⟩
  | real => exact ⟨_, List.mem_of_getElem? (i := 4) rfl, rfl, by simp, .inl ⟨_, rfl, rfl⟩⟩
  | hex => exact ⟨_, List.mem_of_getElem? (i := 6) rfl, rfl, by simp, .inl ⟨_, rfl, rfl⟩⟩
  | dec => exact ⟨_, List.mem_of_getElem? (i := 6) rfl, rfl, by simp, .inl ⟨_, rfl, rfl⟩⟩
  | autoSyncOn => exact ⟨_, List.mem_of_getElem? (i := 8) rfl, rfl, by simp, .inl ⟨_, rfl, rfl⟩⟩
  | autoSyncOff => exact ⟨_, List.mem_of_getElem? (i := 8) rfl, rfl, by simp, .inl ⟨_, rfl, rfl⟩⟩
  | sync => exact ⟨_, List.mem_of_getElem? (i := 10) rfl, rfl, by simp, .inl ⟨_, rfl, rfl⟩⟩
  | createDomain => exact ⟨_, List.mem_of_getElem? (i := 14) rfl, rfl, by simp, .inl ⟨_, rfl, rfl⟩⟩
  | deleteDomain => exact ⟨_, List.mem_of_getElem? (i := 15) rfl, rfl, by simp, .inl ⟨_, rfl, rfl⟩⟩
  | deleteAllDomains => exact ⟨_, List.mem_of_getElem? (i := 16) rfl, rfl, by simp, .inl ⟨_, rfl, rfl⟩⟩
  | renameDomain => exact ⟨_, List.mem_of_getElem? (i := 17) rfl, rfl, by simp, .inl ⟨_, rfl, rfl⟩⟩
  | aware => exact ⟨_, List.mem_of_getElem? (i := 18) rfl, rfl, by simp, .inl ⟨_, rfl, rfl⟩⟩
  | unaware => exact ⟨_, List.mem_of_getElem? (i := 18) rfl, rfl, by simp, .inl ⟨_, rfl, rfl⟩⟩
  | addElement => exact ⟨_, List.mem_of_getElem? (i := 21) rfl, rfl, by simp, .inl ⟨_, rfl, rfl⟩⟩
  | removeElement => exact ⟨_, List.mem_of_getElem? (i := 22) rfl, rfl, by simp, .inl ⟨_, rfl, rfl⟩⟩
  | splitDomain => exact ⟨_, List.mem_of_getElem? (i := 23) rfl, rfl, by simp, .inl ⟨_, rfl, rfl⟩⟩
  | createConfiguration => exact ⟨_, List.mem_of_getElem? (i := 25) rfl, rfl, by simp, .inl ⟨_, rfl, rfl⟩⟩
  | deleteConfiguration => exact ⟨_, List.mem_of_getElem? (i := 26) rfl, rfl, by simp, .inl ⟨_, rfl, rfl⟩⟩
  | renameConfiguration => exact ⟨_, List.mem_of_getElem? (i := 27) rfl, rfl, by simp, .inl ⟨_, rfl, rfl⟩⟩
  | saveConfiguration => exact ⟨_, List.mem_of_getElem? (i := 28) rfl, rfl, by simp, .inl ⟨_, rfl, rfl⟩⟩
  | restoreConfiguration => exact ⟨_, List.mem_of_getElem? (i := 29) rfl, rfl, by simp, .inl ⟨_, rfl, rfl⟩⟩
  | setElementSequence => exact ⟨_, List.mem_of_getElem? (i := 30) rfl, rfl, by simp, .inl ⟨_, rfl, rfl⟩⟩
  | setRule => exact ⟨_, List.mem_of_getElem? (i := 32) rfl, rfl, by simp, .inl ⟨_, rfl, by simp [op2, packArguments, joinTexts_eq]⟩⟩
  | clearRule => exact ⟨_, List.mem_of_getElem? (i := 33) rfl, rfl, by simp, .inl ⟨_, rfl, rfl⟩⟩
  | setElementBytes => exact ⟨_, List.mem_of_getElem? (i := 39) rfl, rfl, by simp, .inl ⟨_, rfl, rfl⟩⟩
  | setParameter => exact ⟨_, List.mem_of_getElem? (i := 46) rfl, rfl, by simp, .inl ⟨_, rfl, by simp [op1, packArguments, joinTexts_eq]⟩⟩
  | setConfigurationParameter => exact ⟨_, List.mem_of_getElem? (i := 50) rfl, rfl, by simp, .inl ⟨_, rfl, by simp [op3, packArguments, joinTexts_eq]⟩⟩
  | setElementXml p t x r h => exact ⟨_, List.mem_of_getElem? (i := 41) rfl, rfl, by simp, .inr ⟨_, rfl, by simp [setElementXmlArgs, onDoc, h]⟩⟩
  | importDomains f x r h => exact ⟨_, List.mem_of_getElem? (i := 56) rfl, rfl, by simp, .inr ⟨_, rfl, by simp [importDomainsArgs, onDoc, h]⟩⟩
  | importDomainsSettings f x r h => exact ⟨_, List.mem_of_getElem? (i := 59) rfl, rfl, by simp, .inr ⟨_, rfl, by simp [importDomainsArgs, onDoc, h]⟩⟩
  | importDomain f x h => exact ⟨_, List.mem_of_getElem? (i := 60) rfl, rfl, by simp, .inr ⟨_, rfl, by simp [importDomainArgs, onDoc, h]⟩⟩
  | importDomainOver f x r h => exact ⟨_, List.mem_of_getElem? (i := 60) rfl, rfl, by simp, .inr ⟨_, rfl, by simp [importDomainArgs, onDoc, h]⟩⟩
  | setDomains t x r h => exact ⟨_, List.mem_of_getElem? (i := 63) rfl, rfl, by simp, .inr ⟨_, rfl, by simp [importDomainsArgs, onDoc, h]⟩⟩
  | setDomain t x h => exact ⟨_, List.mem_of_getElem? (i := 64) rfl, rfl, by simp, .inr ⟨_, rfl, by simp [importDomainArgs, onDoc, h]⟩⟩
  | setDomainOver t x r h => exact ⟨_, List.mem_of_getElem? (i := 64) rfl, rfl, by simp, .inr ⟨_, rfl, by simp [importDomainArgs, onDoc, h]⟩⟩

/-- The entry of the table for a command whose document cannot be read. -/
theorem unreadable_table {w : Docs} {cmd : Str} {args : List Str} (h : Unreadable w cmd args) :
    ∃ c, c ∈ commandTable ∧ c.name = cmd ∧ c.minArgs ≤ args.length ∧ ∃ f, c.action = .imports f ∧ f w args = .refused := by
  cases h with
  | setElementXml p t r h => exact ⟨_, List.mem_of_getElem? (i := 41) rfl, rfl, by simp, _, rfl, by simp [setElementXmlArgs, onDoc, h]⟩
  | importDomains f r h => exact ⟨_, List.mem_of_getElem? (i := 56) rfl, rfl, by simp, _, rfl, by simp [importDomainsArgs, onDoc, h]⟩
  | importDomainsSettings f r h => exact ⟨_, List.mem_of_getElem? (i := 59) rfl, rfl, by simp, _, rfl, by simp [importDomainsArgs, onDoc, h]⟩
  | importDomain f h => exact ⟨_, List.mem_of_getElem? (i := 60) rfl, rfl, by simp, _, rfl, by simp [importDomainArgs, onDoc, h]⟩
  | importDomainOver f r h => exact ⟨_, List.mem_of_getElem? (i := 60) rfl, rfl, by simp, _, rfl, by simp [importDomainArgs, onDoc, h]⟩
  | setDomains t r h => exact ⟨_, List.mem_of_getElem? (i := 63) rfl, rfl, by simp, _, rfl, by simp [importDomainsArgs, onDoc, h]⟩
  | setDomain t h => exact ⟨_, List.mem_of_getElem? (i := 64) rfl, rfl, by simp, _, rfl, by simp [importDomainArgs, onDoc, h]⟩
  | setDomainOver t r h => exact ⟨_, List.mem_of_getElem? (i := 64) rfl, rfl, by simp, _, rfl, by simp [importDomainArgs, onDoc, h]⟩

/-- The entry of the table for a command that writes a file. -/
theorem exports_table {cmd : Str} {args : List Str} {file : Str} {doc : MEnv → Mgr → Out Xml} (h : Exports cmd args file doc) :
    ∃ c, c ∈ commandTable ∧ c.name = cmd ∧ c.minArgs ≤ args.length ∧ ∃ g f, c.action = .exports g f ∧ g args = some file ∧
      ∀ e m, f e m args = doc e m := by
  cases h with
  | domains => exact ⟨_, List.mem_of_getElem? (i := 55) rfl, rfl, by simp, _, _, rfl, rfl, fun _ _ => rfl⟩
  | domainsSettings => exact ⟨_, List.mem_of_getElem? (i := 57) rfl, rfl, by simp, _, _, rfl, rfl, fun _ _ => rfl⟩
  | domain => exact ⟨_, List.mem_of_getElem? (i := 58) rfl, rfl, by simp, _, _, rfl, rfl, fun _ _ => rfl⟩

theorem byteText_eq (b : Byte) :
    byteText b = [hexDigits.getD (b.toNat / 16) ' ', hexDigits.getD (b.toNat % 16) ' '] := by
  have h : ∀ n, n < 16 → lowerHex n = hexDigits.getD n ' ' := by decide
  have := b.isLt
  unfold byteText
  rw [h _ (by omega), h _ (by omega)]

theorem upperChar_eq {c d : Char} (h : d ∈ ['C', 'S', 'V', 'X', 'M', 'L']) :
    upperChar c = d ↔ c = d ∨ c = Char.ofNat (d.toNat + 32) := by
  unfold upperChar
  split
  · rename_i hc
    have h1 : 97 ≤ c.toNat := hc.1
    have h2 : c.toNat ≤ 122 := hc.2
    constructor
    · intro h'
      right
      have key : ∀ k, k < 26 → (Char.ofNat (97 + k - 32)).toNat + 32 = 97 + k := by decide
      have hk := key (c.toNat - 97) (by omega)
      rw [show 97 + (c.toNat - 97) = c.toNat by omega] at hk
      rw [← h', hk, Char.ofNat_toNat]
    · rintro (rfl | h')
      · simp only [List.mem_cons, List.not_mem_nil, or_false] at h
        rcases h with rfl | rfl | rfl | rfl | rfl | rfl <;> simp at h1
      · simp only [List.mem_cons, List.not_mem_nil, or_false] at h
        rcases h with rfl | rfl | rfl | rfl | rfl | rfl <;> subst h' <;> decide
  · rename_i hc
    constructor
    · exact .inl
    · rintro (h' | rfl)
      · exact h'
      · simp only [List.mem_cons, List.not_mem_nil, or_false] at h
        exfalso
        apply hc
        rcases h with rfl | rfl | rfl | rfl | rfl | rfl <;> decide

theorem upper_csv (w : Str) : w.map upperChar = s "CSV" ↔ w ∈ csvWords := by
  match w with
  | [] => simp [s, csvWords]
  | [_] => simp [s, csvWords]
  | [_, _] => simp [s, csvWords]
  | a :: b :: c :: d :: r => simp [s, csvWords]
  | [a, b, c] =>
    have h1 := upperChar_eq (c := a) (d := 'C') (by simp)
    have h2 := upperChar_eq (c := b) (d := 'S') (by simp)
    have h3 := upperChar_eq (c := c) (d := 'V') (by simp)
    simp only [show Char.ofNat (Char.toNat 'C' + 32) = 'c' by decide, show Char.ofNat (Char.toNat 'S' + 32) = 's' by decide,
      show Char.ofNat (Char.toNat 'V' + 32) = 'v' by decide] at h1 h2 h3
    have : s "CSV" = ['C', 'S', 'V'] := by decide
    rw [this]
    simp only [List.map_cons, List.map_nil, List.cons.injEq, and_true, h1, h2, h3]
    simp only [csvWords, s, List.mem_cons, List.not_mem_nil, or_false]
    simp
    grind

theorem upper_xml (w : Str) : w.map upperChar = s "XML" ↔ w ∈ xmlWords := by
  match w with
  | [] => simp [s, xmlWords]
  | [_] => simp [s, xmlWords]
  | [_, _] => simp [s, xmlWords]
  | a :: b :: c :: d :: r => simp [s, xmlWords]
  | [a, b, c] =>
    have h1 := upperChar_eq (c := a) (d := 'X') (by simp)
    have h2 := upperChar_eq (c := b) (d := 'M') (by simp)
    have h3 := upperChar_eq (c := c) (d := 'L') (by simp)
    simp only [show Char.ofNat (Char.toNat 'X' + 32) = 'x' by decide, show Char.ofNat (Char.toNat 'M' + 32) = 'm' by decide,
      show Char.ofNat (Char.toNat 'L' + 32) = 'l' by decide] at h1 h2 h3
    have : s "XML" = ['X', 'M', 'L'] := by decide
    rw [this]
    simp only [List.map_cons, List.map_nil, List.cons.injEq, and_true, h1, h2, h3]
    simp only [xmlWords, s, List.mem_cons, List.not_mem_nil, or_false]
    simp
    grind

theorem bind_printed {print : Xml → Str} (x : Out Xml) : (x.bind fun x => .ok (print x)) = printed print x := by
  cases x <;> rfl

theorem structureCommand_eq {print : Xml → Str} (e : MEnv) (m : Mgr) (p : Str) (r : List Str) :
    ((elementStructureCommand e m (p :: r)).bind fun x => .ok (print x)) =
      match (e.env.root.locate p).bind e.env.root.at? with
      | none => .err
      | some el => .ok (print el.structureXml.xml) := by
  simp only [elementStructureCommand]
  cases hl : e.env.root.locate p with
  | none => rfl
  | some q =>
    obtain ⟨el, he⟩ := Elem.locate_at hl
    simp [he, Out.bind]

theorem elementXmlCommand_eq {print : Xml → Str} (e : MEnv) (m : Mgr) (p : Str) (r : List Str) :
    ((elementXmlCommand e m (p :: r)).bind fun x => .ok (print x)) =
      match e.env.root.locate p with
      | none => .err
      | some q =>
        match e.env.root.getXml m.ctx m.st.mem.main q with
        | .ok x => .ok (print x.xml)
        | .err => .err
        | .abort => .abort := by
  simp only [elementXmlCommand]
  cases e.env.root.locate p with
  | none => rfl
  | some q =>
    simp only
    cases e.env.root.getXml m.ctx m.st.mem.main q <;> rfl

/-- The entry of the table for a command that reads. -/
theorem reads_table {print : Xml → Str} {cmd : Str} {args : List Str} {v : MEnv → Mgr → Out Str} (h : Reads print cmd args v) :
    ∃ c, c ∈ commandTable ∧ c.name = cmd ∧ c.minArgs ≤ args.length ∧
      ((∃ f, c.action = .get f ∧ ∀ e m, f e m args = v e m) ∨
        (∃ f g, c.action = .ask f ∧ f args = .read g ∧ ∀ e m, g e m = v e m) ∨
        (∃ f, c.action = .shows f ∧ ∀ e m, ((f e m args).bind fun x => .ok (print x)) = v e m) ∨
        (∃ f g, c.action = .ask f ∧ f args = .shows g ∧ ∀ e m, ((g e m).bind fun x => .ok (print x)) = v e m)) := by
  cases h with
  | tuning => exact ⟨_, List.mem_of_getElem? (i := 3) rfl, rfl, by simp, .inl ⟨_, rfl, fun _ _ => rfl⟩⟩
  | space => exact ⟨_, List.mem_of_getElem? (i := 5) rfl, rfl, by simp, .inl ⟨_, rfl, fun _ _ => rfl⟩⟩
  | format => exact ⟨_, List.mem_of_getElem? (i := 7) rfl, rfl, by simp, .inl ⟨_, rfl, fun _ _ => rfl⟩⟩
  | autoSync => exact ⟨_, List.mem_of_getElem? (i := 9) rfl, rfl, by simp, .inl ⟨_, rfl, fun _ _ => rfl⟩⟩
  | aware => exact ⟨_, List.mem_of_getElem? (i := 19) rfl, rfl, by simp, .inl ⟨_, rfl, fun e m => by simp only [getSequenceAwarenessCommand]; cases m.st.findDomain _ <;> rfl⟩⟩
  | sequence => exact ⟨_, List.mem_of_getElem? (i := 31) rfl, rfl, by simp, .inl ⟨_, rfl, fun e m => by simp only [getElementSequenceCommand]; cases m.st.getElementSequence _ _ _ <;> rfl⟩⟩
  | rule => exact ⟨_, List.mem_of_getElem? (i := 34) rfl, rfl, by simp, .inl ⟨_, rfl, fun e m => by simp only [getRuleCommand]; cases m.st.getApplicationRule _ _ <;> rfl⟩⟩
  | bytes => exact ⟨_, List.mem_of_getElem? (i := 38) rfl, rfl, by simp, .inl ⟨_, rfl, fun e m => by simp only [getElementBytesCommand, joinTexts_eq, byteText_eq]; rfl⟩⟩
  | parameter => exact ⟨_, List.mem_of_getElem? (i := 45) rfl, rfl, by simp, .inl ⟨_, rfl, fun _ _ => rfl⟩⟩
  | configParameter => exact ⟨_, List.mem_of_getElem? (i := 49) rfl, rfl, by simp, .inl ⟨_, rfl, fun _ _ => rfl⟩⟩
  | status => exact ⟨_, List.mem_of_getElem? (i := 1) rfl, rfl, by simp, .inl ⟨_, rfl, fun _ _ => rfl⟩⟩
  | domains => exact ⟨_, List.mem_of_getElem? (i := 12) rfl, rfl, by simp, .inl ⟨_, rfl, fun _ _ => rfl⟩⟩
  | dumpDomains => exact ⟨_, List.mem_of_getElem? (i := 13) rfl, rfl, by simp, .inl ⟨_, rfl, fun _ _ => rfl⟩⟩
  | domainElements => exact ⟨_, List.mem_of_getElem? (i := 20) rfl, rfl, by simp, .inl ⟨_, rfl, fun _ _ => rfl⟩⟩
  | configurations => exact ⟨_, List.mem_of_getElem? (i := 24) rfl, rfl, by simp, .inl ⟨_, rfl, fun _ _ => rfl⟩⟩
  | elements => exact ⟨_, List.mem_of_getElem? (i := 35) rfl, rfl, by simp, .inl ⟨_, rfl, fun _ _ => rfl⟩⟩
  | parameters => exact ⟨_, List.mem_of_getElem? (i := 36) rfl, rfl, by simp, .inl ⟨_, rfl, fun _ _ => rfl⟩⟩
  | dump => exact ⟨_, List.mem_of_getElem? (i := 42) rfl, rfl, by simp, .inl ⟨_, rfl, fun _ _ => rfl⟩⟩
  | size => exact ⟨_, List.mem_of_getElem? (i := 43) rfl, rfl, by simp, .inl ⟨_, rfl, fun _ _ => rfl⟩⟩
  | belonging => exact ⟨_, List.mem_of_getElem? (i := 47) rfl, rfl, by simp, .inl ⟨_, rfl, fun _ _ => rfl⟩⟩
  | associated => exact ⟨_, List.mem_of_getElem? (i := 48) rfl, rfl, by simp, .inl ⟨_, rfl, fun _ _ => rfl⟩⟩
  | associatedElements => exact ⟨_, List.mem_of_getElem? (i := 52) rfl, rfl, by simp, .inl ⟨_, rfl, fun _ _ => rfl⟩⟩
  | conflicting => exact ⟨_, List.mem_of_getElem? (i := 53) rfl, rfl, by simp, .inl ⟨_, rfl, fun _ _ => rfl⟩⟩
  | rogue => exact ⟨_, List.mem_of_getElem? (i := 54) rfl, rfl, by simp, .inl ⟨_, rfl, fun _ _ => rfl⟩⟩
  | criteria => exact ⟨_, List.mem_of_getElem? (i := 11) rfl, rfl, by simp, .inr (.inl ⟨_, _, rfl, rfl, fun _ _ => rfl⟩)⟩
  | criteriaCsv w h =>
    have hu := (upper_csv w).2 h
    refine ⟨_, List.mem_of_getElem? (i := 11) rfl, rfl, by simp, .inr (.inl ⟨_, fun _ m => .ok (criteriaText true false m.st.criteria), rfl, ?_, fun _ _ => rfl⟩)⟩
    simp only [listCriteriaArgs, hu]
    rw [if_neg (by decide), if_neg (by decide)]
  | criteriaXml w h =>
    have hu := (upper_xml w).2 h
    refine ⟨_, List.mem_of_getElem? (i := 11) rfl, rfl, by simp, .inr (.inr (.inr ⟨_, fun _ m => .ok (criteriaXml m.st.criteria), rfl, ?_, fun _ _ => rfl⟩))⟩
    simp only [listCriteriaArgs, hu]
    rw [if_neg (by decide), if_pos trivial]
  | structureXml p r => exact ⟨_, List.mem_of_getElem? (i := 37) rfl, rfl, by simp, .inr (.inr (.inl ⟨_, rfl, fun e m => structureCommand_eq e m p r⟩))⟩
  | systemXml => exact ⟨_, List.mem_of_getElem? (i := 65) rfl, rfl, by simp, .inr (.inr (.inl ⟨_, rfl, fun _ _ => rfl⟩))⟩
  | elementXml p r => exact ⟨_, List.mem_of_getElem? (i := 40) rfl, rfl, by simp, .inr (.inr (.inl ⟨_, rfl, fun e m => elementXmlCommand_eq e m p r⟩))⟩
  | domainsXml => exact ⟨_, List.mem_of_getElem? (i := 61) rfl, rfl, by simp, .inr (.inr (.inl ⟨_, rfl, fun _ _ => bind_printed _⟩))⟩
  | domainsXmlOld => exact ⟨_, List.mem_of_getElem? (i := 66) rfl, rfl, by simp, .inr (.inr (.inl ⟨_, rfl, fun _ _ => bind_printed _⟩))⟩
  | domainXml => exact ⟨_, List.mem_of_getElem? (i := 62) rfl, rfl, by simp, .inr (.inr (.inl ⟨_, rfl, fun _ _ => bind_printed _⟩))⟩

/-- What the entries of the table mean. -/
def Command.Ok (c : Command) : Prop :=
  match c.action with
  | .op f => ∀ args, c.minArgs ≤ args.length →
      (∀ w o, f args = .op o → Means w c.name args o) ∧ (f args = .outside → c.name = s "setSequenceAwareness" ∧ args.length < 2)
  | .imports f => ∀ w args, c.minArgs ≤ args.length → (∀ o, f w args = .op o → Means w c.name args o) ∧ f w args ≠ .outside
  | .get f => ∀ print args, c.minArgs ≤ args.length → ∃ v, Reads print c.name args v ∧ ∀ e m, f e m args = v e m
  | .ask f => ∀ print args, c.minArgs ≤ args.length →
      (∀ g, f args = .read g → ∃ v, Reads print c.name args v ∧ ∀ e m, g e m = v e m) ∧
      (∀ g, f args = .shows g → ∃ v, Reads print c.name args v ∧ ∀ e m, ((g e m).bind fun x => .ok (print x)) = v e m)
  | .shows f => ∀ print args, c.minArgs ≤ args.length →
      ∃ v, Reads print c.name args v ∧ ∀ e m, ((f e m args).bind fun x => .ok (print x)) = v e m
  | .exports g f => ∀ args, c.minArgs ≤ args.length →
      ∃ file doc, g args = some file ∧ Exports c.name args file doc ∧ ∀ e m, f e m args = doc e m
  | .list => True

theorem op0_ok {name : Str} {n : Nat} {h d : Str} {o : MOp} (hm : ∀ w r, Means w name r o) :
    Command.Ok ⟨name, n, h, d, .op (op0 o)⟩ := by
  intro args _
  refine ⟨fun w o' ho => ?_, fun ho => by simp [op0] at ho⟩
  simp only [op0, OpChoice.op.injEq] at ho
  subst ho
  exact hm w args

theorem op1_ok {name : Str} {n : Nat} {h d : Str} {f : List Str → Str → MOp} (hn : 1 ≤ n)
    (hm : ∀ w a r, n ≤ r.length + 1 → Means w name (a :: r) (f (a :: r) a)) :
    Command.Ok ⟨name, n, h, d, .op (fun as => op1 (f as) as)⟩ := by
  intro args ha
  match args, ha with
  | [], ha => simp at ha; omega
  | a :: r, ha =>
    refine ⟨fun w o' ho => ?_, fun ho => by simp [op1] at ho⟩
    simp only [op1, OpChoice.op.injEq] at ho
    subst ho
    exact hm w a r (by simpa using ha)

theorem op2_ok {name : Str} {n : Nat} {h d : Str} {f : List Str → Str → Str → MOp} (hn : 2 ≤ n)
    (hm : ∀ w a b r, n ≤ r.length + 2 → Means w name (a :: b :: r) (f (a :: b :: r) a b)) :
    Command.Ok ⟨name, n, h, d, .op (fun as => op2 (f as) as)⟩ := by
  intro args ha
  match args, ha with
  | [], ha => simp at ha; omega
  | [_], ha => simp at ha; omega
  | a :: b :: r, ha =>
    refine ⟨fun w o' ho => ?_, fun ho => by simp [op2] at ho⟩
    simp only [op2, OpChoice.op.injEq] at ho
    subst ho
    exact hm w a b r (by simpa using ha)

theorem op3_ok {name : Str} {n : Nat} {h d : Str} {f : List Str → Str → Str → Str → MOp} (hn : 3 ≤ n)
    (hm : ∀ w a b c r, n ≤ r.length + 3 → Means w name (a :: b :: c :: r) (f (a :: b :: c :: r) a b c)) :
    Command.Ok ⟨name, n, h, d, .op (fun as => op3 (f as) as)⟩ := by
  intro args ha
  match args, ha with
  | [], ha => simp at ha; omega
  | [_], ha => simp at ha; omega
  | [_, _], ha => simp at ha; omega
  | a :: b :: c :: r, ha =>
    refine ⟨fun w o' ho => ?_, fun ho => by simp [op3] at ho⟩
    simp only [op3, OpChoice.op.injEq] at ho
    subst ho
    exact hm w a b c r (by simpa using ha)

theorem onOff_ok {name : Str} {n : Nat} {h d yes no : Str} {f : Bool → MOp} (hn : 1 ≤ n)
    (hy : ∀ w r, Means w name (yes :: r) (f true)) (hno : ∀ w r, Means w name (no :: r) (f false)) :
    Command.Ok ⟨name, n, h, d, .op (onOff yes no f)⟩ := by
  intro args ha
  match args, ha with
  | [], ha => simp at ha; omega
  | a :: r, ha =>
    simp only [onOff]
    split
    · rename_i he
      subst he
      refine ⟨fun w o' ho => ?_, fun ho => by simp at ho⟩
      simp only [OpChoice.op.injEq] at ho
      subst ho
      exact hy w r
    · split
      · rename_i he
        subst he
        refine ⟨fun w o' ho => ?_, fun ho => by simp at ho⟩
        simp only [OpChoice.op.injEq] at ho
        subst ho
        exact hno w r
      · exact ⟨fun w o' ho => by simp at ho, fun ho => by simp at ho⟩

theorem one_arg {args : List Str} (h : 1 ≤ args.length) : ∃ a r, args = a :: r := by
  match args, h with
  | a :: r, _ => exact ⟨a, r, rfl⟩

theorem two_args {args : List Str} (h : 2 ≤ args.length) : ∃ a b r, args = a :: b :: r := by
  match args, h with
  | a :: b :: r, _ => exact ⟨a, b, r, rfl⟩

theorem three_args {args : List Str} (h : 3 ≤ args.length) : ∃ a b c r, args = a :: b :: c :: r := by
  match args, h with
  | a :: b :: c :: r, _ => exact ⟨a, b, c, r, rfl⟩

theorem get1_ok {name : Str} {n : Nat} {h d : Str} {f : MEnv → Mgr → Str → Out Str}
    (hm : ∀ print a r, Reads print name (a :: r) fun e m => f e m a) (hn : 1 ≤ n := by decide) :
    Command.Ok ⟨name, n, h, d, .get (get1 f)⟩ := by
  intro print args ha
  obtain ⟨a, r, rfl⟩ := one_arg (Nat.le_trans hn ha)
  exact ⟨_, hm print a r, fun _ _ => rfl⟩

theorem listCriteria_ok {n : Nat} {h d : Str} : Command.Ok ⟨s "listCriteria", n, h, d, .ask listCriteriaArgs⟩ := by
  intro print args _
  match args with
  | [] =>
    refine ⟨fun g hg => ?_, fun g hg => by simp [listCriteriaArgs] at hg⟩
    simp only [listCriteriaArgs, Ask.read.injEq] at hg
    subst hg
    exact ⟨_, .criteria, fun _ _ => rfl⟩
  | [w] =>
    refine ⟨fun g hg => ?_, fun g hg => ?_⟩
    · simp only [listCriteriaArgs] at hg
      split at hg
      · cases hg
      · rename_i h1
        split at hg
        · cases hg
        · rename_i h2
          simp only [Ask.read.injEq] at hg
          subst hg
          refine ⟨_, .criteriaCsv w ((upper_csv w).1 ?_), fun _ _ => rfl⟩
          by_cases hc : w.map upperChar = s "CSV"
          · exact hc
          · exact absurd ⟨h2, hc⟩ h1
    · simp only [listCriteriaArgs] at hg
      split at hg
      · cases hg
      · split at hg
        · rename_i h2
          simp only [Ask.shows.injEq] at hg
          subst hg
          exact ⟨_, .criteriaXml w ((upper_xml w).1 h2), fun _ _ => rfl⟩
        · cases hg
  | _ :: _ :: _ => exact ⟨fun g hg => by simp [listCriteriaArgs] at hg, fun g hg => by simp [listCriteriaArgs] at hg⟩

theorem importDomains_ok {name : Str} {n : Nat} {h d : Str} {source : Docs → Str → Option Xml} {b : Bool} (hn : 1 ≤ n)
    (hm : ∀ w a x r, source w a = some x → Means w name (a :: r) (.importDomains b x)) :
    Command.Ok ⟨name, n, h, d, .imports (importDomainsArgs source b)⟩ := by
  intro w args ha
  obtain ⟨a, r, rfl⟩ := one_arg (Nat.le_trans hn ha)
  simp only [importDomainsArgs, onDoc]
  cases hx : source w a with
  | none => exact ⟨fun o ho => by simp at ho, by simp⟩
  | some x =>
    refine ⟨fun o ho => ?_, by simp⟩
    simp only [OpChoice.op.injEq] at ho
    subst ho
    exact hm w a x r hx

theorem importDomain_ok {name : Str} {n : Nat} {h d : Str} {source : Docs → Str → Option Xml} (hn : 1 ≤ n)
    (hm : ∀ w a x, source w a = some x → Means w name [a] (.importDomain false true x))
    (ho : ∀ w a x r, source w a = some x → Means w name (a :: s "overwrite" :: r) (.importDomain true true x)) :
    Command.Ok ⟨name, n, h, d, .imports (importDomainArgs source)⟩ := by
  intro w args ha
  match args, Nat.le_trans hn ha with
  | [a], _ =>
    simp only [importDomainArgs, onDoc]
    cases hx : source w a with
    | none => exact ⟨fun o ho => by simp at ho, by simp⟩
    | some x =>
      refine ⟨fun o ho => ?_, by simp⟩
      simp only [OpChoice.op.injEq] at ho
      subst ho
      exact hm w a x hx
  | a :: b :: r, _ =>
    simp only [importDomainArgs, onDoc]
    split
    · rename_i hb
      subst hb
      cases hx : source w a with
      | none => exact ⟨fun o ho => by simp at ho, by simp⟩
      | some x =>
        refine ⟨fun o h' => ?_, by simp⟩
        simp only [OpChoice.op.injEq] at h'
        subst h'
        exact ho w a x r hx
    · exact ⟨fun o ho => by simp at ho, by simp⟩

/-- Every entry of the table is right. -/
theorem table_ok : ∀ c ∈ commandTable, c.Ok := by
  unfold commandTable
  refine List.forall_mem_cons.2 ⟨?_, ?_⟩
  · trivial
  refine List.forall_mem_cons.2 ⟨?_, ?_⟩
  · exact fun _ args _ => ⟨_, .status args, fun _ _ => rfl⟩
  refine List.forall_mem_cons.2 ⟨?_, ?_⟩
  · exact onOff_ok (by decide) (fun _ r => .tuningOn r) (fun _ r => .tuningOff r)
  refine List.forall_mem_cons.2 ⟨?_, ?_⟩
  · exact fun _ args _ => ⟨_, .tuning args, fun _ _ => rfl⟩
  refine List.forall_mem_cons.2 ⟨?_, ?_⟩
  · exact onOff_ok (by decide) (fun _ r => .raw r) (fun _ r => .real r)
  refine List.forall_mem_cons.2 ⟨?_, ?_⟩
  · exact fun _ args _ => ⟨_, .space args, fun _ _ => rfl⟩
  refine List.forall_mem_cons.2 ⟨?_, ?_⟩
  · exact onOff_ok (by decide) (fun _ r => .hex r) (fun _ r => .dec r)
  refine List.forall_mem_cons.2 ⟨?_, ?_⟩
  · exact fun _ args _ => ⟨_, .format args, fun _ _ => rfl⟩
  refine List.forall_mem_cons.2 ⟨?_, ?_⟩
  · exact onOff_ok (by decide) (fun _ r => .autoSyncOn r) (fun _ r => .autoSyncOff r)
  refine List.forall_mem_cons.2 ⟨?_, ?_⟩
  · exact fun _ args _ => ⟨_, .autoSync args, fun _ _ => rfl⟩
  refine List.forall_mem_cons.2 ⟨?_, ?_⟩
  · exact op0_ok fun _ r => .sync r
  refine List.forall_mem_cons.2 ⟨?_, ?_⟩
  · exact listCriteria_ok
  refine List.forall_mem_cons.2 ⟨?_, ?_⟩
  · exact fun _ args _ => ⟨_, .domains args, fun _ _ => rfl⟩
  refine List.forall_mem_cons.2 ⟨?_, ?_⟩
  · exact fun _ args _ => ⟨_, .dumpDomains args, fun _ _ => rfl⟩
  refine List.forall_mem_cons.2 ⟨?_, ?_⟩
  · exact op1_ok (f := fun _ => .createDomain) (by decide) fun w a r _ => .createDomain a r
  refine List.forall_mem_cons.2 ⟨?_, ?_⟩
  · exact op1_ok (f := fun _ => .deleteDomain) (by decide) fun w a r _ => .deleteDomain a r
  refine List.forall_mem_cons.2 ⟨?_, ?_⟩
  · exact op0_ok fun _ r => .deleteAllDomains r
  refine List.forall_mem_cons.2 ⟨?_, ?_⟩
  · exact op2_ok (f := fun _ => .renameDomain) (by decide) fun w a b r _ => .renameDomain a b r
  refine List.forall_mem_cons.2 ⟨?_, ?_⟩
  · intro args _
    match args with
    | [] => exact ⟨fun w o ho => by simp [setSequenceAwarenessArgs] at ho, fun _ => ⟨rfl, by simp⟩⟩
    | [_] => exact ⟨fun w o ho => by simp [setSequenceAwarenessArgs] at ho, fun _ => ⟨rfl, by simp⟩⟩
    | d :: a :: r =>
      refine ⟨fun w o ho => ?_, fun ho => by
        simp only [setSequenceAwarenessArgs] at ho; split at ho <;> (try split at ho) <;> simp at ho⟩
      simp only [setSequenceAwarenessArgs] at ho
      split at ho
      · rename_i he; subst he; simp only [OpChoice.op.injEq] at ho; subst ho; exact .aware d r
      · split at ho
        · rename_i he; subst he; simp only [OpChoice.op.injEq] at ho; subst ho; exact .unaware d r
        · simp at ho
  refine List.forall_mem_cons.2 ⟨?_, ?_⟩
  · intro print args ha
    obtain ⟨a, r, rfl⟩ := one_arg ha
    exact ⟨_, .aware a r, fun e m => by simp only [getSequenceAwarenessCommand]; cases m.st.findDomain a <;> rfl⟩
  refine List.forall_mem_cons.2 ⟨?_, ?_⟩
  · exact get1_ok fun _ a r => .domainElements a r
  refine List.forall_mem_cons.2 ⟨?_, ?_⟩
  · exact op2_ok (f := fun _ => .addElement) (by decide) fun w a b r _ => .addElement a b r
  refine List.forall_mem_cons.2 ⟨?_, ?_⟩
  · exact op2_ok (f := fun _ => .removeElement) (by decide) fun w a b r _ => .removeElement a b r
  refine List.forall_mem_cons.2 ⟨?_, ?_⟩
  · exact op2_ok (f := fun _ => .split) (by decide) fun w a b r _ => .splitDomain a b r
  refine List.forall_mem_cons.2 ⟨?_, ?_⟩
  · exact get1_ok fun _ a r => .configurations a r
  refine List.forall_mem_cons.2 ⟨?_, ?_⟩
  · exact op2_ok (f := fun _ => .createConfiguration) (by decide) fun w a b r _ => .createConfiguration a b r
  refine List.forall_mem_cons.2 ⟨?_, ?_⟩
  · exact op2_ok (f := fun _ => .deleteConfiguration) (by decide) fun w a b r _ => .deleteConfiguration a b r
  refine List.forall_mem_cons.2 ⟨?_, ?_⟩
  · exact op3_ok (f := fun _ => .renameConfiguration) (by decide) fun w a b c r _ => .renameConfiguration a b c r
  refine List.forall_mem_cons.2 ⟨?_, ?_⟩
  · exact op2_ok (f := fun _ => .saveConfiguration) (by decide) fun w a b r _ => .saveConfiguration a b r
  refine List.forall_mem_cons.2 ⟨?_, ?_⟩
  · exact op2_ok (f := fun _ => .restoreConfiguration) (by decide) fun w a b r _ => .restoreConfiguration a b r
  refine List.forall_mem_cons.2 ⟨?_, ?_⟩
  · refine op2_ok (f := fun as d c => .setElementSequence d c (as.drop 2)) (by decide) fun w a b r hr => ?_
    match r, hr with
    | p :: ps, _ => exact .setElementSequence a b p ps
  refine List.forall_mem_cons.2 ⟨?_, ?_⟩
  · intro print args ha
    obtain ⟨a, b, r, rfl⟩ := two_args ha
    exact ⟨_, .sequence a b r, fun e m => by
      simp only [getElementSequenceCommand]; cases m.st.getElementSequence e.env.root a b <;> rfl⟩
  refine List.forall_mem_cons.2 ⟨?_, ?_⟩
  · refine op2_ok (f := fun as d c => .setApplicationRule d c (packArguments 2 as)) (by decide) fun w a b r hr => ?_
    match r, hr with
    | p :: ps, _ => simpa [packArguments, joinTexts_eq] using Means.setRule (w := w) a b p ps
  refine List.forall_mem_cons.2 ⟨?_, ?_⟩
  · exact op2_ok (f := fun _ => .clearApplicationRule) (by decide) fun w a b r _ => .clearRule a b r
  refine List.forall_mem_cons.2 ⟨?_, ?_⟩
  · intro print args ha
    obtain ⟨a, b, r, rfl⟩ := two_args ha
    exact ⟨_, .rule a b r, fun e m => by simp only [getRuleCommand]; cases m.st.getApplicationRule a b <;> rfl⟩
  refine List.forall_mem_cons.2 ⟨?_, ?_⟩
  · exact get1_ok fun _ a r => .elements a r
  refine List.forall_mem_cons.2 ⟨?_, ?_⟩
  · exact get1_ok fun _ a r => .parameters a r
  refine List.forall_mem_cons.2 ⟨?_, ?_⟩
  · intro print args ha
    obtain ⟨a, r, rfl⟩ := one_arg ha
    exact ⟨_, .structureXml a r, fun e m => structureCommand_eq e m a r⟩
  refine List.forall_mem_cons.2 ⟨?_, ?_⟩
  · intro print args ha
    obtain ⟨a, r, rfl⟩ := one_arg ha
    exact ⟨_, .bytes a r, fun e m => by simp only [getElementBytesCommand, joinTexts_eq, byteText_eq]; rfl⟩
  refine List.forall_mem_cons.2 ⟨?_, ?_⟩
  · refine op1_ok (f := fun as p => .setElementBytes p (as.drop 1)) (by decide) fun w a r hr => ?_
    match r, hr with
    | p :: ps, _ => exact .setElementBytes a p ps
  refine List.forall_mem_cons.2 ⟨?_, ?_⟩
  · intro print args ha
    obtain ⟨a, r, rfl⟩ := one_arg ha
    exact ⟨_, .elementXml a r, fun e m => elementXmlCommand_eq e m a r⟩
  refine List.forall_mem_cons.2 ⟨?_, ?_⟩
  · intro w args ha
    obtain ⟨a, b, r, rfl⟩ := two_args ha
    simp only [setElementXmlArgs, onDoc]
    cases hx : w.text b with
    | none => exact ⟨fun o ho => by simp at ho, by simp⟩
    | some x =>
      refine ⟨fun o ho => ?_, by simp⟩
      simp only [OpChoice.op.injEq] at ho
      subst ho
      exact .setElementXml a b x r hx
  refine List.forall_mem_cons.2 ⟨?_, ?_⟩
  · exact get1_ok fun _ a r => .dump a r
  refine List.forall_mem_cons.2 ⟨?_, ?_⟩
  · exact get1_ok fun _ a r => .size a r
  refine List.forall_mem_cons.2 ⟨?_, ?_⟩
  · trivial
  refine List.forall_mem_cons.2 ⟨?_, ?_⟩
  · intro print args ha
    obtain ⟨a, r, rfl⟩ := one_arg ha
    exact ⟨_, .parameter a r, fun e m => rfl⟩
  refine List.forall_mem_cons.2 ⟨?_, ?_⟩
  · refine op1_ok (f := fun as p => .setParameter p (packArguments 1 as)) (by decide) fun w a r hr => ?_
    match r, hr with
    | p :: ps, _ => simpa [packArguments, joinTexts_eq] using Means.setParameter (w := w) a p ps
  refine List.forall_mem_cons.2 ⟨?_, ?_⟩
  · exact get1_ok fun _ a r => .belonging a r
  refine List.forall_mem_cons.2 ⟨?_, ?_⟩
  · exact get1_ok fun _ a r => .associated a r
  refine List.forall_mem_cons.2 ⟨?_, ?_⟩
  · intro print args ha
    obtain ⟨a, b, c, r, rfl⟩ := three_args ha
    exact ⟨_, .configParameter a b c r, fun e m => rfl⟩
  refine List.forall_mem_cons.2 ⟨?_, ?_⟩
  · refine op3_ok (f := fun as d c p => .setConfigurationParameter d c p (packArguments 3 as)) (by decide) fun w a b c r hr => ?_
    match r, hr with
    | p :: ps, _ => simpa [packArguments, joinTexts_eq] using Means.setConfigurationParameter (w := w) a b c p ps
  refine List.forall_mem_cons.2 ⟨?_, ?_⟩
  · trivial
  refine List.forall_mem_cons.2 ⟨?_, ?_⟩
  · exact fun _ args _ => ⟨_, .associatedElements args, fun _ _ => rfl⟩
  refine List.forall_mem_cons.2 ⟨?_, ?_⟩
  · exact fun _ args _ => ⟨_, .conflicting args, fun _ _ => rfl⟩
  refine List.forall_mem_cons.2 ⟨?_, ?_⟩
  · exact fun _ args _ => ⟨_, .rogue args, fun _ _ => rfl⟩
  refine List.forall_mem_cons.2 ⟨?_, ?_⟩
  · intro args ha
    obtain ⟨a, r, rfl⟩ := one_arg ha
    exact ⟨_, _, rfl, .domains a r, fun _ _ => rfl⟩
  refine List.forall_mem_cons.2 ⟨?_, ?_⟩
  · exact importDomains_ok (by decide) fun w a x r h => .importDomains a x r h
  refine List.forall_mem_cons.2 ⟨?_, ?_⟩
  · intro args ha
    obtain ⟨a, r, rfl⟩ := one_arg ha
    exact ⟨_, _, rfl, .domainsSettings a r, fun _ _ => rfl⟩
  refine List.forall_mem_cons.2 ⟨?_, ?_⟩
  · intro args ha
    obtain ⟨a, b, r, rfl⟩ := two_args ha
    exact ⟨_, _, rfl, .domain a b r, fun _ _ => rfl⟩
  refine List.forall_mem_cons.2 ⟨?_, ?_⟩
  · exact importDomains_ok (by decide) fun w a x r h => .importDomainsSettings a x r h
  refine List.forall_mem_cons.2 ⟨?_, ?_⟩
  · exact importDomain_ok (by decide) (fun w a x h => .importDomain a x h) (fun w a x r h => .importDomainOver a x r h)
  refine List.forall_mem_cons.2 ⟨?_, ?_⟩
  · exact fun _ args _ => ⟨_, .domainsXml args, fun _ _ => bind_printed _⟩
  refine List.forall_mem_cons.2 ⟨?_, ?_⟩
  · intro print args ha
    obtain ⟨a, r, rfl⟩ := one_arg ha
    exact ⟨_, .domainXml a r, fun _ _ => bind_printed _⟩
  refine List.forall_mem_cons.2 ⟨?_, ?_⟩
  · exact importDomains_ok (by decide) fun w a x r h => .setDomains a x r h
  refine List.forall_mem_cons.2 ⟨?_, ?_⟩
  · exact importDomain_ok (by decide) (fun w a x h => .setDomain a x h) (fun w a x r h => .setDomainOver a x r h)
  refine List.forall_mem_cons.2 ⟨?_, ?_⟩
  · exact fun _ args _ => ⟨_, .systemXml args, fun _ _ => rfl⟩
  refine List.forall_mem_cons.2 ⟨?_, ?_⟩
  · exact fun _ args _ => ⟨_, .domainsXmlOld args, fun _ _ => bind_printed _⟩
  · simp

end PF
