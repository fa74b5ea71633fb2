import Verif.Lemmas.Framework
import Verif.Props.Start
import Verif.Props.StructureWF
import Verif.Props.Manager
import Verif.Props.Plugins

/-!
# C81, C82: the start of the framework from its files
-/

namespace PF
open Spec

/-! A configuration, a structure with an inclusion, and the file it includes. -/

namespace SampleFiles
open SampleDoc (xml)

/-- A subsystem with one parameter. -/
def amp : SXml :=
  xml "Subsystem" [("Name", "amp"), ("Type", "Virtual")]
    [xml "ComponentLibrary" [], xml "InstanceDefinition" []
      [xml "IntegerParameter" [("Name", "gain"), ("Size", "8"), ("Signed", "true"), ("Min", "-20"), ("Max", "20")]]]

/-- A subsystem with another one. -/
def mic : SXml :=
  xml "Subsystem" [("Name", "mic"), ("Type", "Virtual")]
    [xml "ComponentLibrary" [], xml "InstanceDefinition" [] [xml "IntegerParameter" [("Name", "level"), ("Size", "16"), ("Min", "7")]]]

/-- A structure that includes the first subsystem and contains the second one. -/
def system : SXml := xml "SystemClass" [("Name", "audio")] [xml "SubsystemInclude" [("Path", "amp.xml")], mic]

/-- A configuration. -/
def configuration (allowed port : String) : SXml :=
  xml "ParameterFrameworkConfiguration" [("SystemClassName", "audio"), ("TuningAllowed", allowed), ("ServerPort", port)]
    [xml "SubsystemPlugins" [] [xml "Location" [("Folder", "")]],
     xml "StructureDescriptionFileLocation" [("Path", "system.xml")]]

/-- The files, with the given configuration; names are taken as they are. -/
def disk (cfg : SXml) : Disk :=
  { uri := fun _ p => some p
    doc := fun u => if u = s "main.xml" then some cfg else if u = s "system.xml" then some system
      else if u = s "amp.xml" then some amp else none
    domains := fun _ => none
    valid := fun u => u != s "amp.xml" }

/-- All ports but 22 can be opened. -/
def world (cfg : SXml) : World :=
  { disk := disk cfg
    linker := ⟨fun _ _ => false, fun _ => [], fun _ => false⟩
    plugin := fun _ _ => ([], [])
    listens := fun n => n != 22
    rd := .none
    hw := fun _ _ _ => none
    back := .simulated
    addr := fun _ => 0 }

/-- The structure in one file. -/
theorem inlined (cfg : SXml) : Inlined (disk cfg) false (s "system.xml") system.children [amp, mic] :=
  .file (u := s "amp.xml") (by decide) rfl ⟨rfl, rfl, by simp⟩ (.keep (by decide) .nil)

end SampleFiles

/-! ## C81: files in files -/

/-- C81: a structure file that includes others loads as the one document with their contents in place of the inclusions, whatever
comes out of that. -/
theorem C81_same {d : Disk} {validate : Bool} {uri : Str} {sys : SXml} {ys : List SXml}
    (hd : IsDoc d validate (s "SystemClass") uri sys) (hi : Inlined d validate uri sys.children ys)
    (rd : Reader) (fuel : Nat) (plugins : Str → Option Plugin) (name : Str) :
    loadSystemFile d validate rd fuel plugins name uri = Run.load (loadSystem rd fuel plugins name (withChildren sys ys)) := by
  unfold loadSystemFile loadSystem
  rw [populate_ok.2 hd]
  simp only [Out.load, Load.bind]
  rw [loadSubsystemFiles_inlined hi]
  show _ = Run.load (Run.bind (loadSubsystems rd fuel plugins 0 ys) _)
  rcases loadSubsystems rd fuel plugins 0 ys with _ | (_ | _ | _) <;> rfl

/-- C81: nothing else is loaded, and there is only one such document. -/
theorem C81_only {d : Disk} {validate : Bool} {rd : Reader} {fuel : Nat} {plugins : Str → Option Plugin} {name uri : Str} {root : Elem}
    (h : loadSystemFile d validate rd fuel plugins name uri = .ok root) :
    ∃ sys, IsDoc d validate (s "SystemClass") uri sys ∧ ∃ ys, (∀ zs, Inlined d validate uri sys.children zs ↔ zs = ys) ∧
      loadSystem rd fuel plugins name (withChildren sys ys) = some (.ok root) := by
  obtain ⟨sys, ys, h1, h2, h3⟩ := loadSystemFile_ok.1 h
  exact ⟨sys, h1, ys, fun zs => ⟨fun hz => hz.unique h2, fun e => e ▸ h2⟩, h3⟩

/-- C81: a file that is missing, is something else, or is not valid when that is asked for, is not passed over. -/
theorem C81_missing {d : Disk} {validate : Bool} {uri : Str} {sys x : SXml} (hs : d.doc uri = some sys) (hx : x ∈ sys.children)
    (ht : x.tag = s "SubsystemInclude") (hu : ∀ u, d.uri uri (pathAttr x) = some u → ∀ y, ¬ IsDoc d validate (s "Subsystem") u y)
    (rd : Reader) (fuel : Nat) (plugins : Str → Option Plugin) (name : Str) (root : Elem) :
    loadSystemFile d validate rd fuel plugins name uri ≠ .ok root := by
  intro h
  obtain ⟨sys', ys, h1, h2, -⟩ := loadSystemFile_ok.1 h
  rw [Option.some.inj (hs.symm.trans h1.1)] at hx
  clear h h1 hs
  generalize sys'.children = xs at hx h2
  induction h2 with
  | nil => simp at hx
  | keep hk _ ih =>
    rcases List.mem_cons.1 hx with rfl | hx
    · exact hk ht
    · exact ih hx
  | file _ hu' hd _ ih =>
    rcases List.mem_cons.1 hx with rfl | hx
    · exact hu _ hu' _ hd
    · exact ih hx

/-- The sample in two files loads as the one in one file: a system with two subsystems. -/
example : ∃ root, loadSystemFile (SampleFiles.disk SampleFiles.system) false .none 1 (fun _ => some .virtual) (s "audio")
    (s "system.xml") = .ok root ∧ root.children.map Elem.name = [s "amp", s "mic"] := by
  rw [C81_same ⟨rfl, rfl, by simp⟩ (SampleFiles.inlined _)]
  have h : (match loadSystem .none 1 (fun _ => some .virtual) (s "audio") (withChildren SampleFiles.system
    [SampleFiles.amp, SampleFiles.mic]) with
    | some (.ok root) => decide (root.children.map Elem.name = [s "amp", s "mic"])
    | _ => false) = true := by decide +kernel
  split at h
  · rename_i root hr
    rw [hr]
    exact ⟨root, rfl, of_decide_eq_true h⟩
  · simp at h

/-- With validation it does not: the included file is not valid. -/
example (fuel : Nat) (root : Elem) : loadSystemFile (SampleFiles.disk SampleFiles.system) true .none fuel (fun _ => some .virtual)
    (s "audio") (s "system.xml") ≠ .ok root := by
  refine C81_missing (sys := SampleFiles.system) (x := SampleDoc.xml "SubsystemInclude" [("Path", "amp.xml")]) rfl
    (by simp [SampleFiles.system, SampleDoc.xml, SXml.children]) rfl ?_ _ _ _ _ _
  intro u hu y hy
  have hu' : u = s "amp.xml" := (Option.some.inj hu).symm
  subst hu'
  exact absurd (hy.2.2 rfl) (by decide)

/-! ## C82: the start -/

/-- C82: the framework starts exactly when its files allow it, and then as they say. -/
theorem C82_starts {w : World} {pol : Policies} {uri : Str} {cs : List Criterion} {r : Started} :
    (∃ fuel, startFramework w pol uri fuel cs = .ok r) ↔ ∃ cfg st settings, Starts w pol uri cs r cfg st settings := by
  constructor
  · rintro ⟨fuel, h⟩
    obtain ⟨c, locs, st, root, settings, h1, h2, h3, h4, h5, he, hm, hp⟩ := startFramework_ok.1 h
    obtain ⟨cfg, hd, hn, ha, hport, hx⟩ := loadConfiguration_ok.1 h1
    obtain ⟨p, hp1, hp2, hp3, rfl⟩ := (pluginLocations_ok hx).1 h2
    obtain ⟨rest, hrest⟩ := loadPlugins_ok.1 h3
    obtain ⟨l, u, sys, ys, hl, hu, hsd, hys, hload⟩ := (loadStructure_ok hx).1 h4
    obtain ⟨hp4, hp5⟩ := openPort_ok.1 hp
    refine ⟨cfg, st, settings, hd, loadFwItems_iff.1 ⟨_, hx⟩, by rw [he]; exact ha, ⟨p, rest, hp1, hp2, hp3, hrest⟩,
      ⟨l, u, sys, ys, fuel, hl, hu, hsd, hys, by rw [he, ← hn]; exact hload⟩, (findSettings_ok hx).1 h5, ?_, hm,
      ⟨c.port, hport, ?_, ?_⟩⟩
    · rw [he]; exact ⟨rfl, rfl, rfl⟩
    · rw [he]; exact hp4
    · rw [he]; exact hp5
  · rintro ⟨cfg, st, settings, hS⟩
    obtain ⟨is, hx⟩ := loadFwItems_iff.2 hS.understood
    obtain ⟨p, rest, hp1, hp2, hp3, hrest⟩ := hS.plugins
    obtain ⟨l, u, sys, ys, fuel, hl, hu, hsd, hys, hload⟩ := hS.system
    obtain ⟨n, hn, hp4, hp5⟩ := hS.port
    obtain ⟨hw, hrd, haddr⟩ := hS.world
    refine ⟨fuel, startFramework_ok.2 ⟨⟨(cfg.attr (s "SystemClassName")).getD [], r.env.allowed, n, is⟩, _, st, r.env.env.root,
      settings, loadConfiguration_ok.2 ⟨cfg, hS.config, rfl, hS.allowed, hn, hx⟩,
      (pluginLocations_ok hx).2 ⟨p, hp1, hp2, hp3, rfl⟩, loadPlugins_ok.2 ⟨rest, hrest⟩,
      (loadStructure_ok (c := ⟨_, _, _, is⟩) hx).2 ⟨l, u, sys, ys, hl, hu, hsd, hys, hload⟩,
      (findSettings_ok (c := ⟨_, _, _, is⟩) hx).2 hS.declared, ?_, hS.manager, openPort_ok.2 ⟨hp4, hp5⟩⟩⟩
    rw [← hw, ← hrd, ← haddr]

/-- C82: the files determine what is started. -/
theorem C82_determined {w : World} {pol : Policies} {uri : Str} {cs : List Criterion} {r r' : Started} {cfg cfg' : SXml}
    {st st' : PluginState} {settings settings' : Settings} (h : Starts w pol uri cs r cfg st settings)
    (h' : Starts w pol uri cs r' cfg' st' settings') : r = r' := by
  obtain ⟨f, hf⟩ := C82_starts.2 ⟨_, _, _, h⟩
  obtain ⟨f', hf'⟩ := C82_starts.2 ⟨_, _, _, h'⟩
  have h1 := startFramework_mono (Nat.le_max_left f f') hf
  have h2 := startFramework_mono (Nat.le_max_right f f') hf'
  exact Load.ok.inj (h1.symm.trans h2)

/-- C82: an exception leaves `start` exactly when an attribute of the root of the configuration does not convert. -/
theorem C82_threw {w : World} {pol : Policies} {uri : Str} {fuel : Nat} {cs : List Criterion} :
    startFramework w pol uri fuel cs = .threw ↔
    ∃ cfg, IsDoc w.disk pol.validate (s "ParameterFrameworkConfiguration") uri cfg ∧
      ¬ ((∃ b, BoolAttr cfg (s "TuningAllowed") b) ∧ ∃ n, PortAttr cfg n) :=
  startFramework_threw.trans loadConfiguration_threw

/-- C82: with validation, every document that a start is made from is valid. -/
theorem C82_validated {w : World} {pol : Policies} (hv : pol.validate = true) {uri : Str} {cs : List Criterion} {r : Started}
    {fuel : Nat} (h : startFramework w pol uri fuel cs = .ok r) :
    w.disk.valid uri = true ∧ ∃ cfg, w.disk.doc uri = some cfg ∧
    ∃ l u sys, First (fun c => c.tag = s "StructureDescriptionFileLocation") cfg.children l ∧ w.disk.uri uri (pathAttr l) = some u ∧
      w.disk.valid u = true ∧ w.disk.doc u = some sys ∧
      ∀ x ∈ sys.children, x.tag = s "SubsystemInclude" → ∃ v, w.disk.uri u (pathAttr x) = some v ∧ w.disk.valid v = true := by
  obtain ⟨cfg, st, settings, hS⟩ := C82_starts.1 ⟨fuel, h⟩
  obtain ⟨l, u, sys, ys, fuel, hl, hu, hsd, hys, hload⟩ := hS.system
  refine ⟨hS.config.2.2 hv, cfg, hS.config.1, l, u, sys, hl, hu, hsd.2.2 hv, hsd.1, ?_⟩
  clear hload hsd
  generalize sys.children = xs at hys
  intro x hx ht
  induction hys with
  | nil => simp at hx
  | keep hk _ ih =>
    rcases List.mem_cons.1 hx with rfl | hx
    · exact absurd ht hk
    · exact ih hx
  | file _ hu' hd _ ih =>
    rcases List.mem_cons.1 hx with rfl | hx
    · exact ⟨_, hu', hd.2.2 hv⟩
    · exact ih hx

/-- C82: what is started from files that meet the hypotheses of C58 and C66 is a state from which all histories of the other
properties begin.  Missing: see C58 and C66. -/
theorem C82_reachable_partial {w : World} {pol : Policies} {uri : Str} {cs : List Criterion} {r : Started} {cfg : SXml}
    {st : PluginState} {settings : Settings} (h : Starts w pol uri cs r cfg st settings)
    (h32 : ∀ f t, (w.plugin f t).1.length ≤ 32)
    (hdoc : ∀ ys, DeclaredSubsystems w.disk pol.validate uri cfg ys → ∀ c ∈ ys,
      (∃ lib defx, Layout c lib defx) ∧ Everywhere SizesDeclared c)
    (hreg : settings.Regular r.env.env.root) : MReachable r.env cs r.mgr := by
  obtain ⟨l, u, sys, ys, fuel, hl, hu, hsd, hys, hload⟩ := h.system
  have hwf := (C58_sizes_partial (plugins := w.plugins st) (x := withChildren sys ys) (fun n keys cr hp => by
    unfold World.plugins at hp
    cases hb : st.builderOf n with
    | none => rw [hb] at hp; cases hp
    | some b =>
      rw [hb] at hp
      cases b with
      | virtual => cases hp
      | plugin f t =>
        simp only [Option.map_some, Option.some.injEq, Plugin.mapped.injEq] at hp
        rw [← hp.1]
        exact h32 f t)
    (fun c hc => (hdoc ys ⟨l, u, sys, hl, hu, hsd, hys⟩ c hc).1) (fun c hc => (hdoc ys ⟨l, u, sys, hl, hu, hsd, hys⟩ c hc).2) hload).1
  have := C66_manager hwf hreg (failOnError := pol.failOnSettings) (back := w.back) (cs := cs) (by rw [h.manager])
  rwa [h.manager] at this

/-- C82: what a configuration does not allow cannot be turned on later: no port is listened to, and the tuning mode is off whatever
is done. -/
theorem C82_denied {w : World} {pol : Policies} {uri : Str} {cs : List Criterion} {r : Started} {fuel : Nat}
    (h : startFramework w pol uri fuel cs = .ok r) (hd : r.env.allowed = false) :
    r.port = none ∧ ∀ ops : List MOp, (ops.foldl (fun m op => (op.step r.env m).2) r.mgr).tuning = false := by
  obtain ⟨cfg, st, settings, hS⟩ := C82_starts.1 ⟨fuel, h⟩
  obtain ⟨n, -, -, hp⟩ := hS.port
  refine ⟨hp (by simp [hd]), fun ops => ?_⟩
  have h0 : r.mgr.tuning = false := by
    have := congrArg (fun q : Out Unit × Mgr => q.2.tuning) hS.manager
    exact this.symm
  revert h0
  generalize r.mgr = m
  intro h0
  induction ops generalizing m with
  | nil => exact h0
  | cons op ops ih =>
    refine ih _ ?_
    by_cases e : (op.step r.env m).2.tuning = m.tuning
    · rw [e, h0]
    · have := ((C48_tuning_mode r.env m op).1 e).2 h0
      rw [hd] at this
      cases this

/-- C82: without the policy that accepts them, missing plugins are refused (for plugins that do not throw; see C80). -/
theorem C82_missing_plugins_partial {w : World} {pol : Policies} (hf : pol.failOnMissing = true) (hm : MoreOpens w.linker)
    {uri : Str} {cs : List Criterion} {r : Started} {cfg : SXml} {st : PluginState} {settings : Settings}
    (h : Starts w pol uri cs r cfg st settings) (hq : ∀ f, w.linker.throws f = false) {p : SXml}
    (hp : First (fun c => calledAs c = s "SubsystemPlugins") cfg.children p) :
    ∀ f ∈ PluginFiles (p.children.map PluginLocation.ofXml), f ∈ st.loaded := by
  obtain ⟨p', rest, hp', -, -, hload⟩ := h.plugins
  have e : p = p' := by
    obtain ⟨a, b, h1, h2, h3⟩ := hp
    obtain ⟨a', b', h1', h2', h3'⟩ := hp'
    rw [h1] at h1'
    rcases List.append_eq_append_iff.1 h1' with ⟨m, rfl, hm⟩ | ⟨m, rfl, hm⟩
    · cases m with
      | nil => simp only [List.nil_append, List.cons.injEq] at hm; exact hm.1
      | cons z m =>
        simp only [List.cons_append, List.cons.injEq] at hm
        exact absurd h2 (hm.1 ▸ h3' z (by simp))
    · cases m with
      | nil => simp only [List.nil_append, List.cons.injEq] at hm; exact hm.1.symm
      | cons z m =>
        simp only [List.cons_append, List.cons.injEq] at hm
        exact absurd h2' (hm.1 ▸ h3 z (by simp))
  subst e
  obtain ⟨h1, -, -, -, h5⟩ := C80_exact_partial w.linker hm ⟨[], [], false⟩ rfl _ (fun f _ => hq f) _ _ _ _ hload
  rcases h5.1 rfl with h5 | h5
  · exact fun f hff => (h1 f).2 (h5 f hff)
  · rw [hf] at h5; cases h5

/-! ## Cases -/

/-- What the start of a sample gives: the port and the values, if it starts. -/
def SampleFiles.outcome (pol : Policies) (allowed port : String) : Option (Option Nat × List Byte) :=
  match startFramework (SampleFiles.world (SampleFiles.configuration allowed port)) pol (s "main.xml") 1 [] with
  | .ok r => some (r.port, r.mgr.st.mem.main)
  | _ => none

/-- A start from three files, with tuning allowed, without, and with a remote interface that the client forbids. -/
example :
    SampleFiles.outcome .initial "true" "5001" = some (some 5001, [0xEC, 7, 0]) ∧
    SampleFiles.outcome .initial "0" "5001" = some (none, [0xEC, 7, 0]) ∧
    SampleFiles.outcome { Policies.initial with noRemote := true } "1" "5001" = some (none, [0xEC, 7, 0]) := by
  decide +kernel

/-- So that the hypotheses of the theorems above are met. -/
theorem SampleFiles.starts : ∃ r cfg st settings, Starts (SampleFiles.world (SampleFiles.configuration "true" "5001")) .initial
    (s "main.xml") [] r cfg st settings := by
  have h : (SampleFiles.outcome .initial "true" "5001").isSome = true := by decide +kernel
  unfold SampleFiles.outcome at h
  split at h
  · rename_i r hr
    obtain ⟨cfg, st, settings, hS⟩ := C82_starts.1 ⟨1, hr⟩
    exact ⟨r, cfg, st, settings, hS⟩
  · simp at h

/-- The subsystems that the sample declares. -/
theorem SampleFiles.declared {allowed port : String} {v : Bool} {ys : List SXml}
    (h : DeclaredSubsystems (SampleFiles.disk (SampleFiles.configuration allowed port)) v (s "main.xml")
      (SampleFiles.configuration allowed port) ys) : ys = [SampleFiles.amp, SampleFiles.mic] := by
  obtain ⟨l, u, sys, ⟨pre, post, e, hl, hpre⟩, hu, hd, hi⟩ := h
  have e : [SampleDoc.xml "SubsystemPlugins" [] [SampleDoc.xml "Location" [("Folder", "")]],
     SampleDoc.xml "StructureDescriptionFileLocation" [("Path", "system.xml")]] = pre ++ l :: post := e
  obtain rfl : l = SampleDoc.xml "StructureDescriptionFileLocation" [("Path", "system.xml")] := by
    cases pre with
    | nil =>
      simp only [List.nil_append, List.cons.injEq] at e
      rw [← e.1] at hl
      exact absurd hl (by decide)
    | cons a pre =>
      cases pre with
      | nil => simp only [List.cons_append, List.nil_append, List.cons.injEq] at e; exact e.2.1.symm
      | cons b pre => exact absurd (congrArg List.length e) (by simp)
  obtain rfl : s "system.xml" = u := Option.some.inj hu
  obtain rfl : SampleFiles.system = sys := by
    have : (SampleFiles.disk (SampleFiles.configuration allowed port)).doc (s "system.xml") = some SampleFiles.system := rfl
    exact Option.some.inj (this.symm.trans hd.1)
  have hi : Inlined (SampleFiles.disk (SampleFiles.configuration allowed port)) v (s "system.xml")
    [SampleDoc.xml "SubsystemInclude" [("Path", "amp.xml")], SampleFiles.mic] ys := hi
  cases hi with
  | keep hk _ => exact absurd rfl hk
  | file _ hu hd hrest =>
    have : (SampleFiles.disk (SampleFiles.configuration allowed port)).doc (s "amp.xml") = some SampleFiles.amp := rfl
    obtain rfl := Option.some.inj hu
    obtain rfl := Option.some.inj (this.symm.trans hd.1)
    cases hrest with
    | keep _ hnil =>
      cases hnil
      rfl
    | file hk => exact absurd hk (by decide)

theorem SampleFiles.sizes : ∀ c ∈ [SampleFiles.amp, SampleFiles.mic],
    (∃ lib defx, Layout c lib defx) ∧ Everywhere SizesDeclared c := by
  intro c hc
  simp only [List.mem_cons, List.not_mem_nil, or_false] at hc
  rcases hc with rfl | rfl
  · exact ⟨⟨_, _, _, rfl, rfl, rfl, rfl⟩, everywhere_check sizesB_ok (by decide +kernel)⟩
  · exact ⟨⟨_, _, _, rfl, rfl, rfl, rfl⟩, everywhere_check sizesB_ok (by decide +kernel)⟩

theorem SampleFiles.settings {allowed port : String} {v : Bool} {uri : Str} {found : Settings}
    (h : DeclaredSettings (SampleFiles.disk (SampleFiles.configuration allowed port)) v uri
      (SampleFiles.configuration allowed port) found) : found = .absent := by
  have none : ∀ {g}, ¬ First (fun c => c.tag = s "SettingsConfiguration") (SampleFiles.configuration allowed port).children g := by
    rintro g ⟨pre, post, e, hg, -⟩
    have hm : g ∈ (SampleFiles.configuration allowed port).children := e ▸ by simp
    simp only [SampleFiles.configuration, SampleDoc.xml, SXml.children, List.mem_cons, List.not_mem_nil, or_false] at hm
    rcases hm with rfl | rfl <;> exact absurd hg (by decide)
  cases h with
  | absent _ => rfl
  | noFile hg _ => exact absurd hg none
  | file hg _ _ _ => exact absurd hg none

/-- The sample starts in a reachable state: `C82_reachable_partial` applies. -/
example : ∃ r : Started, MReachable r.env [] r.mgr ∧ r.mgr.st.mem.main = [0xEC, 7, 0] := by
  have h : (SampleFiles.outcome .initial "true" "5001") = some (some 5001, [0xEC, 7, 0]) := by decide +kernel
  unfold SampleFiles.outcome at h
  split at h
  · rename_i r hr
    obtain ⟨cfg, st, settings, hS⟩ := C82_starts.1 ⟨1, hr⟩
    obtain rfl : SampleFiles.configuration "true" "5001" = cfg := Option.some.inj hS.config.1
    obtain rfl := SampleFiles.settings hS.declared
    simp only [Option.some.injEq, Prod.mk.injEq] at h
    exact ⟨r, C82_reachable_partial hS (fun _ _ => by simp [SampleFiles.world])
      (fun ys hys => by rw [SampleFiles.declared hys]; exact SampleFiles.sizes) trivial, h.2⟩
  · simp at h

/-- With validation, with a port that cannot be opened, or with a port that is not one, there is no start. -/
example :
    SampleFiles.outcome { Policies.initial with validate := true } "true" "5001" = none ∧
    SampleFiles.outcome .initial "true" "22" = none ∧ SampleFiles.outcome .initial "true" "65536" = none := by
  decide +kernel

/-- C82: a port that is not one makes `start` throw instead of returning an error. -/
theorem C82_throws_on_port : ∃ (w : World) (uri : Str), ∀ fuel cs, startFramework w .initial uri fuel cs = .threw := by
  refine ⟨SampleFiles.world (SampleFiles.configuration "true" "65536"), s "main.xml", fun fuel cs => ?_⟩
  rw [startFramework_threw]
  have h : (match loadConfiguration (SampleFiles.disk (SampleFiles.configuration "true" "65536")) false (s "main.xml") with
    | .threw => true
    | _ => false) = true := by decide +kernel
  split at h
  · assumption
  · simp at h

/-- C82: a configuration in which something else is called as the plugins are, makes the program read what is not there. -/
theorem C82_undefined_on_plugins : ∃ (w : World) (uri : Str), ∀ fuel cs, startFramework w .initial uri fuel cs = .stopped := by
  refine ⟨SampleFiles.world (SampleDoc.xml "ParameterFrameworkConfiguration" []
    [SampleDoc.xml "StructureDescriptionFileLocation" [("Name", "SubsystemPlugins"), ("Path", "system.xml")]]), s "main.xml",
    fun fuel cs => ?_⟩
  rfl

end PF
