import Verif.Model.Framework
import Verif.Spec.StructureAccept

/-!
# What the files of a framework declare

Stated on the documents.
-/

namespace PF.Spec

/-- `x` is the document of the file `uri`: it can be read, its root has the given tag, and it is valid if validation is asked for. -/
def IsDoc (d : Disk) (validate : Bool) (tag uri : Str) (x : SXml) : Prop :=
  d.doc uri = some x ∧ x.tag = tag ∧ (validate = true → d.valid uri = true)

/-- The first of `xs` with the property `P`. -/
def First (P : SXml → Prop) (xs : List SXml) (x : SXml) : Prop :=
  ∃ pre post, xs = pre ++ x :: post ∧ P x ∧ ∀ y ∈ pre, ¬ P y

/-- The attribute `name` of `x` is the truth value `b`, false when there is no such attribute. -/
def BoolAttr (x : SXml) (name : Str) (b : Bool) : Prop :=
  (x.attr name = none ∧ b = false) ∨
  (∃ t, x.attr name = some t ∧ t ∈ [s "0", s "false", s "FALSE"] ∧ b = false) ∨
  (∃ t, x.attr name = some t ∧ t ∈ [s "1", s "true", s "TRUE"] ∧ b = true)

/-- The port that a configuration declares, zero by default. -/
def PortAttr (x : SXml) (port : Nat) : Prop :=
  (x.attr (s "ServerPort") = none ∧ port = 0) ∨
  ∃ t, x.attr (s "ServerPort") = some t ∧ UnsignedText t port ∧ port < 65536

/-- The path of a file, as an attribute. -/
def pathAttr (x : SXml) : Str := (x.attr (s "Path")).getD []

/-- An element that a framework configuration may contain, with the elements below it. -/
inductive Understood : SXml → Prop
  | location {x} : x.tag = s "Location" → Understood x
  | file {x} : x.tag = s "StructureDescriptionFileLocation" ∨ x.tag = s "ConfigurableDomainsFileLocation" →
      pathAttr x ≠ [] → Understood x
  | group {x} : x.tag = s "SubsystemPlugins" ∨ x.tag = s "SettingsConfiguration" → (∀ c ∈ x.children, Understood c) → Understood x
  | nested {x allowed port} : x.tag = s "ParameterFrameworkConfiguration" → BoolAttr x (s "TuningAllowed") allowed →
      PortAttr x port → (∀ c ∈ x.children, Understood c) → Understood x

/-- How an element of a framework configuration is called: its name if it has one, otherwise its tag. -/
def calledAs (x : SXml) : Str :=
  if x.tag = s "ParameterFrameworkConfiguration" ∨ x.nameAttr = [] then x.tag else x.nameAttr

/-- The children of a system class with each inclusion replaced by the subsystem of the file it names; names are relative to the
file `base`. -/
inductive Inlined (d : Disk) (validate : Bool) (base : Str) : List SXml → List SXml → Prop
  | nil : Inlined d validate base [] []
  | keep {x xs ys} : x.tag ≠ s "SubsystemInclude" → Inlined d validate base xs ys → Inlined d validate base (x :: xs) (x :: ys)
  | file {x xs u y ys} : x.tag = s "SubsystemInclude" → d.uri base (pathAttr x) = some u →
      IsDoc d validate (s "Subsystem") u y → Inlined d validate base xs ys → Inlined d validate base (x :: xs) (y :: ys)

/-- A document with other children. -/
def withChildren (x : SXml) (ys : List SXml) : SXml := .mk x.tag x.attrs ys

/-- The settings behind the file `u`. -/
def FileSettings (d : Disk) (validate : Bool) (u : Str) : Settings → Prop
  | .absent => False
  | .unusable => d.domains u = none ∨ (validate = true ∧ d.valid u = false)
  | .doc x => d.domains u = some x ∧ (validate = true → d.valid u = true)

/-- The settings that a configuration declares. -/
inductive DeclaredSettings (d : Disk) (validate : Bool) (uri : Str) (cfg : SXml) : Settings → Prop
  | absent : (∀ c ∈ cfg.children, c.tag ≠ s "SettingsConfiguration") → DeclaredSettings d validate uri cfg .absent
  | noFile {g} : First (fun c => c.tag = s "SettingsConfiguration") cfg.children g →
      (∀ c ∈ g.children, c.tag ≠ s "ConfigurableDomainsFileLocation") → DeclaredSettings d validate uri cfg .unusable
  | file {g l u st} : First (fun c => c.tag = s "SettingsConfiguration") cfg.children g →
      First (fun c => c.tag = s "ConfigurableDomainsFileLocation") g.children l →
      d.uri uri (pathAttr l) = some u → FileSettings d validate u st → DeclaredSettings d validate uri cfg st

/-- The subsystems that a configuration declares: those of the structure file it names, with the files that this one includes. -/
def DeclaredSubsystems (d : Disk) (validate : Bool) (uri : Str) (cfg : SXml) (ys : List SXml) : Prop :=
  ∃ l u sys, First (fun c => c.tag = s "StructureDescriptionFileLocation") cfg.children l ∧ d.uri uri (pathAttr l) = some u ∧
    IsDoc d validate (s "SystemClass") u sys ∧ Inlined d validate u sys.children ys

/-- The framework of the configuration file `uri` starts as `r`: everything in the configuration is understood; the plugins it names
are loaded, or their absence is accepted; the structure file it names, with the files that this one includes, describes the system;
the settings it names are applied; and the port it gives is listened to, if tuning is allowed and the client does not forbid it. -/
structure Starts (w : World) (pol : Policies) (uri : Str) (cs : List Criterion) (r : Started) (cfg : SXml) (st : PluginState)
    (settings : Settings) : Prop where
  config : IsDoc w.disk pol.validate (s "ParameterFrameworkConfiguration") uri cfg
  understood : ∀ c ∈ cfg.children, Understood c
  allowed : BoolAttr cfg (s "TuningAllowed") r.env.allowed
  plugins : ∃ p rest, First (fun c => calledAs c = s "SubsystemPlugins") cfg.children p ∧ p.tag = s "SubsystemPlugins" ∧
    (∀ l ∈ p.children, l.tag = s "Location") ∧
    w.linker.loadSubsystems ⟨[], [], false⟩ (p.children.map PluginLocation.ofXml) (!pol.failOnMissing) = some (true, rest, st)
  system : ∃ l u sys ys fuel, First (fun c => c.tag = s "StructureDescriptionFileLocation") cfg.children l ∧
    w.disk.uri uri (pathAttr l) = some u ∧ IsDoc w.disk pol.validate (s "SystemClass") u sys ∧
    Inlined w.disk pol.validate u sys.children ys ∧
    loadSystem w.rd fuel (w.plugins st) ((cfg.attr (s "SystemClassName")).getD []) (withChildren sys ys) =
      some (.ok r.env.env.root)
  declared : DeclaredSettings w.disk pol.validate uri cfg settings
  world : r.env.env.hw = w.hw ∧ r.env.env.rd = w.rd ∧ r.env.addr = w.addr
  manager : Mgr.start r.env pol.failOnSettings settings w.back cs = (.ok (), r.mgr)
  port : ∃ n, PortAttr cfg n ∧
    (r.env.allowed = true ∧ pol.noRemote = false → r.port = some n ∧ w.listens n = true) ∧
    (¬ (r.env.allowed = true ∧ pol.noRemote = false) → r.port = none)

end PF.Spec
