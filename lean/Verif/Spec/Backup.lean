import Verif.Spec.Command
import Verif.Spec.XmlDomains

/-! # Specification: backups made by commands -/

namespace PF.Spec

/-- The domain can be carried by a document: its configurations have names, its rules and settings are such that texts
carry them (see C06 and C53) and, if values are shown in the raw value space, the numbers of its enumerations are not
negative (`C53_raw_export_not_importable`). -/
structure DomainStorable (e : MEnv) (m : Mgr) (d : Domain) : Prop where
  raw : m.raw = true → ∀ c ∈ d.configs, ∀ a ∈ c.areas, ∀ el, e.env.root.at? a.elem = some el → el.NonNegative a.board 0
  names : ∀ c ∈ d.configs, c.name ≠ []
  rules : ∀ c ∈ d.configs, ∀ r, c.rule = some r → Writable m.st.criteria r
  settings : ∀ c ∈ d.configs, ∀ a ∈ c.areas, ∀ el, e.env.root.at? a.elem = some el → el.Carried m.ctx a.board 0

/-- The document that is exported, if any, is read back as it was written: what is asked of the XML library. -/
def ReadsBack (u : Unmodelled) (doc : Out Xml) : Prop := ∀ x, doc = .ok x → u.parse (u.print x) = some x

/-- No request of the session asks for a document in the file `f`. -/
def KeepsFile (f : Str) (rs : List Request) : Prop :=
  ∀ r ∈ rs, ∀ doc, ¬ Exports (bytesStr r.command) (r.arguments.map bytesStr) f doc

end PF.Spec
