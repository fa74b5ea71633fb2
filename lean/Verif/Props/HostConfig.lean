import Verif.Model.HostConfig
import Verif.Props.Framework
import Verif.Props.Generator

/-!
# C97: the configuration for a host
-/

namespace PF
open Spec

theorem attr_setAttr (t : Str) (cs : List SXml) (name value m : Str) : ∀ as : List (Str × Str),
    (SXml.mk t (setAttr name value as) cs).attr m = if m = name then some value else (SXml.mk t as cs).attr m
  | [] => by
    by_cases h : m = name
    · subst h; simp [setAttr, SXml.attr, SXml.attrs]
    · simp [setAttr, SXml.attr, SXml.attrs, h, Ne.symm h]
  | a :: as => by
    have ih := attr_setAttr t cs name value m as
    unfold setAttr
    by_cases ha : a.1 = name
    · rw [if_pos ha]
      by_cases h : m = name
      · subst h; simp [SXml.attr, SXml.attrs]
      · rw [if_neg h]
        have : a.1 ≠ m := fun e => h (e.symm.trans ha)
        simp [SXml.attr, SXml.attrs, Ne.symm h, this]
    · rw [if_neg ha]
      simp only [SXml.attr, SXml.attrs, List.find?_cons] at ih ⊢
      by_cases hm : a.1 = m
      · have h : m ≠ name := fun e => ha (hm.trans e)
        simp [hm, h]
      · simp only [beq_eq_false_iff_ne.2 hm]
        exact ih

theorem SXml.host_tag (port path : Option Str) : ∀ x : SXml, (x.host port path).tag = x.tag
  | .mk .. => by rw [SXml.host]; rfl

theorem SXml.host_children (port path : Option Str) : ∀ x : SXml, (x.host port path).children = SXml.hosts port path x.children
  | .mk .. => by rw [SXml.host]; rfl

theorem SXml.hosts_mem (port path : Option Str) : ∀ (xs : List SXml) (y : SXml), y ∈ SXml.hosts port path xs ↔
    ∃ x ∈ xs, hostDeletes x.tag = false ∧ y = x.host port path
  | [], y => by simp [SXml.hosts]
  | x :: xs, y => by
    have ih := SXml.hosts_mem port path xs y
    rw [SXml.hosts]
    cases h : hostDeletes x.tag with
    | true => simp [ih, h]
    | false => simp [ih, h]

theorem first_cons {P : SXml → Prop} {x : SXml} {xs : List SXml} {y : SXml} :
    First P (x :: xs) y ↔ (P x ∧ y = x) ∨ (¬ P x ∧ First P xs y) := by
  constructor
  · rintro ⟨pre, post, e, h1, h2⟩
    cases pre with
    | nil =>
      simp only [List.nil_append, List.cons.injEq] at e
      exact .inl ⟨e.1 ▸ h1, e.1.symm⟩
    | cons a pre =>
      simp only [List.cons_append, List.cons.injEq] at e
      exact .inr ⟨e.1 ▸ h2 a (by simp), pre, post, e.2, h1, fun z hz => h2 z (by simp [hz])⟩
  · rintro (⟨h, rfl⟩ | ⟨h, pre, post, rfl, h1, h2⟩)
    · exact ⟨[], xs, rfl, h, by simp⟩
    · refine ⟨x :: pre, post, rfl, h1, fun z hz => ?_⟩
      rcases List.mem_cons.1 hz with rfl | hz
      · exact h
      · exact h2 z hz

theorem hosts_first (port path : Option Str) {tag : Str} (ht : hostDeletes tag = false) : ∀ {xs : List SXml} {y : SXml},
    First (fun c => c.tag = tag) (SXml.hosts port path xs) y → ∃ x, First (fun c => c.tag = tag) xs x ∧ y = x.host port path
  | [], y, h => by
    rw [SXml.hosts] at h
    obtain ⟨pre, post, e, -⟩ := h
    simp at e
  | x :: xs, y, h => by
    rw [SXml.hosts] at h
    split at h
    · rename_i hd
      obtain ⟨z, h1, h2⟩ := hosts_first port path ht h
      refine ⟨z, first_cons.2 (.inr ⟨fun e => ?_, h1⟩), h2⟩
      rw [e, ht] at hd
      simp at hd
    · rcases first_cons.1 h with ⟨h1, h2⟩ | ⟨h1, h2⟩
      · exact ⟨x, first_cons.2 (.inl ⟨by rwa [SXml.host_tag] at h1, rfl⟩), h2⟩
      · obtain ⟨z, h3, h4⟩ := hosts_first port path ht h2
        exact ⟨z, first_cons.2 (.inr ⟨by rwa [SXml.host_tag] at h1, h3⟩), h4⟩

theorem host_root {port path : Option Str} {x : SXml} (ht : x.tag = s "ParameterFrameworkConfiguration") (name : Str) :
    (x.host port path).attr name = if name = s "TuningAllowed" then some (s "true")
      else if name = s "ServerPort" then port.orElse (fun _ => x.attr name) else x.attr name := by
  obtain ⟨t, as, cs⟩ := x
  obtain rfl : t = s "ParameterFrameworkConfiguration" := ht
  rw [SXml.host]
  simp only [hostAttrs, if_true]
  rw [attr_setAttr]
  split
  · rfl
  · cases port with
    | none => simp; rfl
    | some p => simp only [attr_setAttr]; split <;> rfl

theorem host_path {port path : Option Str} {x : SXml} (ht : x.tag = s "StructureDescriptionFileLocation") :
    pathAttr (x.host port path) = match path with | none => pathAttr x | some p => p ++ s "/" ++ pathAttr x := by
  obtain ⟨t, as, cs⟩ := x
  obtain rfl : t = s "StructureDescriptionFileLocation" := ht
  rw [SXml.host]
  unfold hostAttrs
  rw [if_neg (by decide), if_pos rfl]
  cases path with
  | none => rfl
  | some p =>
    unfold pathAttr
    simp only [attr_setAttr, if_true, Option.getD_some]
    rfl

theorem host_settings {disk : Disk} {validate : Bool} {uri : Str} {port path : Option Str} {cfg : SXml} {settings : Settings}
    (h : DeclaredSettings disk validate uri (cfg.host port path) settings) : settings = .absent := by
  have hno : ∀ c ∈ (cfg.host port path).children, c.tag ≠ s "SettingsConfiguration" := by
    intro c hc e
    rw [SXml.host_children] at hc
    obtain ⟨x, -, h1, rfl⟩ := (SXml.hosts_mem ..).1 hc
    rw [SXml.host_tag] at e
    rw [e] at h1
    simp [hostDeletes] at h1
  have hf : ∀ g, ¬ First (fun c => c.tag = s "SettingsConfiguration") (cfg.host port path).children g := by
    rintro g ⟨pre, post, e, hg, -⟩
    exact hno g (by rw [e]; simp) hg
  cases h with
  | absent _ => rfl
  | noFile hg _ => exact absurd hg (hf _)
  | file hg _ _ _ => exact absurd hg (hf _)

theorem start_absent_domains {e : MEnv} {f : Bool} {back : BackSync} {cs : List Criterion} {m : Mgr}
    (h : Mgr.start e f .absent back cs = (.ok (), m)) : m.st.domains = [] := by
  unfold Mgr.start at h
  simp only [Prod.mk.injEq] at h
  obtain ⟨h1, rfl⟩ := h
  show (St.start e.env f .absent back cs).2.domains = []
  revert h1
  unfold St.start St.loadSettings St.loadSettingsFile
  simp only
  unfold St.finishStart
  split
  · simp only [St.initial, mapAll, St.apply, applyDomains]
    intro _; rfl
  · simp

section
variable {w : World} {pol : Policies} {uri : Str} {fuel : Nat} {cs : List Criterion} {r : Started} {cfg host : SXml}
  {port path : Option Str}

/-- **C97.**  A framework that starts from a configuration that was changed for a host: tuning is allowed, it has no domains, the port is
the given one, no plugin is used, and its structure is that of the file that the configuration names, in the given directory, with
virtual subsystems. -/
theorem C97_started (hh : hostConfig port path cfg = some host) (hd : w.disk.doc uri = some host)
    (h : startFramework w pol uri fuel cs = .ok r) :
    r.env.allowed = true ∧ r.mgr.st.domains = [] ∧
    (∀ p, port = some p → pol.noRemote = false → ∃ n, UnsignedText p n ∧ r.port = some n) ∧
    ∃ plugins, (∀ type pl, plugins type = some pl → pl = .virtual) ∧
      (pol.failOnMissing = false → ∀ type, plugins type = some .virtual) ∧
      ∃ l u sys ys fuel, First (fun c => c.tag = s "StructureDescriptionFileLocation") cfg.children l ∧
        w.disk.uri uri (match path with | none => pathAttr l | some p => p ++ s "/" ++ pathAttr l) = some u ∧
        IsDoc w.disk pol.validate (s "SystemClass") u sys ∧ Inlined w.disk pol.validate u sys.children ys ∧
        loadSystem w.rd fuel plugins ((cfg.attr (s "SystemClassName")).getD []) (withChildren sys ys) = some (.ok r.env.env.root) := by
  obtain ⟨cfg', st, settings, hS⟩ := C82_starts.1 ⟨fuel, h⟩
  obtain rfl : host = cfg' := Option.some.inj (hd.symm.trans hS.config.1)
  unfold hostConfig at hh
  split at hh
  · simp at hh
  obtain rfl := Option.some.inj hh
  have htag : cfg.tag = s "ParameterFrameworkConfiguration" := by
    rw [← SXml.host_tag port path cfg]; exact hS.config.2.1
  have hall : r.env.allowed = true := by
    rcases hS.allowed with ⟨h1, -⟩ | ⟨t, h1, h2, -⟩ | ⟨t, h1, h2, h3⟩
    · rw [host_root htag] at h1; simp at h1
    · rw [host_root htag] at h1
      simp only [if_true, Option.some.injEq] at h1
      subst h1
      exact absurd h2 (by decide)
    · exact h3
  have hset := host_settings hS.declared
  subst hset
  refine ⟨hall, start_absent_domains hS.manager, fun p hp hn => ?_, w.plugins st, ?_⟩
  · obtain ⟨n, h1, h2, -⟩ := hS.port
    rcases h1 with ⟨h1, -⟩ | ⟨t, h1, h3, -⟩
    · rw [host_root htag, hp] at h1; simp [s] at h1
    · rw [host_root htag, hp] at h1
      rw [if_neg (by decide), if_pos rfl] at h1
      simp only [Option.orElse_some, Option.some.injEq] at h1
      subst h1
      exact ⟨n, h3, (h2 ⟨hall, hn⟩).1⟩
  · obtain ⟨p, rest, ⟨pre, post, hpe, -⟩, -, hp3, hload⟩ := hS.plugins
    have hempty : p.children = [] := by
      have hm : p ∈ (cfg.host port path).children := by rw [hpe]; simp
      rw [SXml.host_children] at hm
      obtain ⟨x, -, -, rfl⟩ := (SXml.hosts_mem ..).1 hm
      refine List.eq_nil_iff_forall_not_mem.2 fun y hy => ?_
      have h1 := hp3 y hy
      rw [SXml.host_children] at hy
      obtain ⟨z, -, h2, rfl⟩ := (SXml.hosts_mem ..).1 hy
      rw [SXml.host_tag] at h1
      rw [h1] at h2
      simp [hostDeletes] at h2
    rw [hempty] at hload
    simp only [List.map_nil, Linker.loadSubsystems, List.flatMap_nil, List.length_nil, Linker.passes, Option.map_some, Bool.false_or,
      Option.some.injEq, Prod.mk.injEq] at hload
    obtain ⟨-, -, rfl⟩ := hload
    refine ⟨fun type pl hpl => ?_, fun hf type => ?_, ?_⟩
    · unfold World.plugins PluginState.builderOf at hpl
      simp only [List.find?_cons, List.find?_nil] at hpl
      split at hpl
      · rename_i hv
        split at hv
        · cases hv; simpa using hpl.symm
        · simp at hv
      · split at hpl
        · simpa using hpl.symm
        · simp at hpl
    · unfold World.plugins PluginState.builderOf
      simp only [List.find?_cons, List.find?_nil, hf]
      split
      · rename_i hv
        split at hv
        · cases hv; rfl
        · simp at hv
      · rfl
    · obtain ⟨l, u, sys, ys, f, h1, h2, h3, h4, h5⟩ := hS.system
      rw [SXml.host_children] at h1
      obtain ⟨l', h6, rfl⟩ := hosts_first port path (by decide) h1
      have hl : l'.tag = s "StructureDescriptionFileLocation" := by
        obtain ⟨_, _, _, h7, _⟩ := h6
        exact h7
      rw [host_path hl] at h2
      rw [host_root htag, if_neg (by decide), if_neg (by decide)] at h5
      exact ⟨l', u, sys, ys, f, h6, h2, h3, h4, h5⟩

/-- C97: on what was started so, the tuning mode can be turned on. -/
theorem C97_tuning (hh : hostConfig port path cfg = some host) (hd : w.disk.doc uri = some host)
    (h : startFramework w pol uri fuel cs = .ok r) :
    (MOp.setTuningMode true).step r.env r.mgr = (.ok (), { r.mgr with tuning := true }) := by
  have hall := (C97_started hh hd h).1
  obtain ⟨cfg', st, settings, hS⟩ := C82_starts.1 ⟨fuel, h⟩
  have ht : r.mgr.tuning = false := by
    have := congrArg (fun q : Out Unit × Mgr => q.2.tuning) hS.manager
    exact this.symm
  simp [MOp.step, Mgr.setTuningMode, hall, ht]

/-- C97: with a structure that meets the hypotheses of C58, it is in a state from which all histories of the other properties begin.
Missing: see C58. -/
theorem C97_reachable_partial (hh : hostConfig port path cfg = some host) (hd : w.disk.doc uri = some host)
    (h : startFramework w pol uri fuel cs = .ok r)
    (hdoc : ∀ l u sys ys, First (fun c => c.tag = s "StructureDescriptionFileLocation") cfg.children l →
      w.disk.uri uri (match path with | none => pathAttr l | some p => p ++ s "/" ++ pathAttr l) = some u →
      IsDoc w.disk pol.validate (s "SystemClass") u sys → Inlined w.disk pol.validate u sys.children ys →
      ∀ c ∈ ys, (∃ lib defx, Layout c lib defx) ∧ Everywhere SizesDeclared c) :
    r.env.env.root.WF ∧ MReachable r.env cs r.mgr := by
  obtain ⟨-, -, -, plugins, hv, -, l, u, sys, ys, f, h1, h2, h3, h4, h5⟩ := C97_started hh hd h
  have hwf := (C58_sizes_partial (plugins := plugins) (x := withChildren sys ys) (fun n keys cr hp => by
    have := hv _ _ hp; cases this)
    (fun c hc => (hdoc l u sys ys h1 h2 h3 h4 c hc).1) (fun c hc => (hdoc l u sys ys h1 h2 h3 h4 c hc).2) h5).1
  refine ⟨hwf, ?_⟩
  obtain ⟨cfg', st, settings, hS⟩ := C82_starts.1 ⟨fuel, h⟩
  obtain rfl : host = cfg' := Option.some.inj (hd.symm.trans hS.config.1)
  have hset : settings = .absent := by
    unfold hostConfig at hh
    split at hh
    · simp at hh
    obtain rfl := Option.some.inj hh
    exact host_settings hS.declared
  have := C66_manager hwf (settings := settings) (by rw [hset]; trivial) (failOnError := pol.failOnSettings) (back := w.back) (cs := cs)
    (by rw [hS.manager])
  rwa [hS.manager] at this

end

/-! ## A configuration for a host -/

namespace SampleHost
open SampleDoc (xml)

/-- A configuration that denies tuning, asks for a plugin and has settings. -/
def configuration : SXml :=
  xml "ParameterFrameworkConfiguration" [("SystemClassName", "audio"), ("TuningAllowed", "false"), ("ServerPort", "22")]
    [xml "SubsystemPlugins" [] [xml "Location" [("Folder", "/lib")] [xml "Plugin" [("Name", "libamp.so")]]],
     xml "StructureDescriptionFileLocation" [("Path", "system.xml")],
     xml "SettingsConfiguration" [] [xml "ConfigurableDomainsFileLocation" [("Path", "domains.xml")]]]

/-- The same, changed for a host. -/
def changed : SXml :=
  xml "ParameterFrameworkConfiguration" [("SystemClassName", "audio"), ("TuningAllowed", "true"), ("ServerPort", "5001")]
    [xml "SubsystemPlugins" [], xml "StructureDescriptionFileLocation" [("Path", "etc/system.xml")]]

/-- The files of the host: the structure is in a directory. -/
def disk (cfg : SXml) : Disk :=
  { SampleFiles.disk cfg with
    doc := fun u => if u = s "main.xml" then some cfg else if u = s "etc/system.xml" then some SampleFiles.system
      else if u = s "amp.xml" then some SampleFiles.amp else none }

def world (cfg : SXml) : World := { SampleFiles.world cfg with disk := disk cfg }

/-- The changes. -/
theorem hosted : hostConfig (some (s "5001")) (some (s "etc")) configuration = some changed := rfl

/-- The port and the number of domains after the start, if there is one. -/
def outcome (cfg : SXml) : Option (Option Nat × Bool × Nat) :=
  match startFramework (world cfg) .initial (s "main.xml") 1 [] with
  | .ok r => some (r.port, r.env.allowed, r.mgr.st.domains.length)
  | _ => none

/-- As it was the configuration cannot be used on the host; changed it can. -/
theorem outcomes : outcome configuration = none ∧ outcome changed = some (some 5001, true, 0) := by decide +kernel

/-- The hypotheses of the theorems above are met. -/
example : ∃ r, hostConfig (some (s "5001")) (some (s "etc")) configuration = some changed ∧
    (world changed).disk.doc (s "main.xml") = some changed ∧
    startFramework (world changed) .initial (s "main.xml") 1 [] = .ok r := by
  have h := outcomes.2
  unfold outcome at h
  split at h
  · rename_i r hr
    exact ⟨r, hosted, rfl, hr⟩
  · simp at h

end SampleHost

/-- C97: a configuration that names its structure by an absolute path is changed to one that does not name it any more: the directory
is put before whatever path there is. -/
theorem C97_absolute_path : ∃ (path : Str) (cfg host : SXml),
    hostConfig none (some path) cfg = some host ∧
    cfg.children.map pathAttr = [s "/etc/audio/system.xml"] ∧
    host.children.map pathAttr = [s "/etc/audio//etc/audio/system.xml"] :=
  ⟨s "/etc/audio", SampleDoc.xml "ParameterFrameworkConfiguration" []
    [SampleDoc.xml "StructureDescriptionFileLocation" [("Path", "/etc/audio/system.xml")]], _, rfl, by decide +kernel, by decide +kernel⟩

end PF
