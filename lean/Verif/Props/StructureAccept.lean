import Verif.Lemmas.StructureAcceptCheck
import Verif.Props.Structure

/-!
# C71: documents that keep the rules are loaded
-/

namespace PF
open PF.Spec

variable {rd : Reader}

/-- C71.  If a structure document keeps the rules (attributes are readable, references are to component
types declared before, elements have the children that belong to them) and it declares some elements,
then it is loaded, and what is loaded is those elements, however many nested calls are allowed from some
number on. -/
theorem C71_accepted {x defx : SXml} {lib : List SXml} (h : DocumentAccepted rd x lib defx) {ms : List MData}
    {is : List IElem} (hm : Maps [x] ms) (hi : Insts rd lib none defx.children is) :
    ∃ fuel, ∀ fuel', fuel ≤ fuel' →
      loadInstances rd fuel' x = some (.ok (.mk x.nameAttr (.group (s "Subsystem")) ms is)) := by
  obtain ⟨⟨m, l, ts⟩, hr⟩ := loadDeclarations_accepts h
  obtain ⟨libx, hc, hlt, -, rfl⟩ := h.layout
  obtain ⟨-, hl, hts⟩ := loadDeclarations_ok hc hlt hr
  have htk : ((typesInAll libx.children).map typeName).take l.length = (typesInAll libx.children).map typeName := by
    rw [List.take_of_length_le]; simp [hl.len]
  obtain ⟨fuel, js, hjs⟩ := Builds.all (lib := l) (ts := ts) (fun u hu => by
    obtain ⟨c, hcm, hc'⟩ := loadElems_mem hts u hu
    exact Insts.builds hl hi c hcm l.length _ _ (by rw [htk]; exact hc'))
  have hload : loadInstances rd fuel x = some (.ok (.mk x.nameAttr (.group (s "Subsystem")) m.toList js)) := by
    unfold loadInstances
    rw [hr]
    simp only [Run.bind]
    rw [hjs]
  obtain ⟨ms', is', e, hm', hi'⟩ := C57_declared hc hlt hload
  cases e
  rw [Maps.unique hm hm', Insts.unique hi hi']
  exact ⟨fuel, fun fuel' hle => loadInstances_mono hle hload⟩

/-- C71.  If a document keeps the rules and no component type contains, at any depth, a component of its
own type, then it is loaded.  (With such a type loading may not end: `C56_unbounded`.) -/
theorem C71_loaded {x defx : SXml} {lib : List SXml} (h : DocumentAccepted rd x lib defx)
    (hns : ∀ t ∈ lib, ∀ c ∈ t.children, ¬ RefersTo (typeName t) c) :
    ∃ fuel i, ∀ fuel', fuel ≤ fuel' → loadInstances rd fuel' x = some (.ok i) := by
  obtain ⟨⟨m, l, ts⟩, hr⟩ := loadDeclarations_accepts h
  obtain ⟨libx, hc, hlt, -, rfl⟩ := h.layout
  obtain ⟨-, hl, hts⟩ := loadDeclarations_ok hc hlt hr
  obtain ⟨fuel, r, hf⟩ := C56_ends_partial (rd := rd) hc hlt hns
  have htk : ((typesInAll libx.children).map typeName).take l.length = (typesInAll libx.children).map typeName := by
    rw [List.take_of_length_le]; simp [hl.len]
  have hfine : Fine (loadInstances rd fuel x) := by
    unfold loadInstances
    rw [hr]
    show Fine (Run.bind (instElems l (typeContent l fuel) ts) _)
    refine Fine.bind (instElems_fine (libx := typesInAll libx.children) (k := l.length)
      (typeContent_fine hl h.types fuel) _ _ _ _ _ (by rw [htk]; exact hts) h.instances) fun _ => .ok _
  rcases hfine with e | ⟨i, e⟩
  · rw [hf fuel (Nat.le_refl _)] at e; cases e
  · rw [hf fuel (Nat.le_refl _)] at e
    cases e
    exact ⟨fuel, i, hf⟩

/-- The sample document keeps the rules: types in a set, an extension, arrays, bit fields, floating-point
bounds, hexadecimal and negative numbers. -/
theorem SampleDoc.doc_accepted :
    DocumentAccepted SampleDoc.reader SampleDoc.doc (typesInAll SampleDoc.docLib.children) SampleDoc.docDef :=
  documentAccepted_check rfl rfl rfl (by decide +kernel)

/-- It declares the elements that it is loaded as. -/
example : ∃ fuel, ∀ fuel', fuel ≤ fuel' → loadInstances SampleDoc.reader fuel' SampleDoc.doc =
    some (.ok SampleDoc.docAmp) := by
  obtain ⟨ms, is, e, hm, hi⟩ := C57_declared (x := SampleDoc.doc) rfl rfl SampleDoc.doc_loads
  rw [e]
  exact C71_accepted SampleDoc.doc_accepted hm hi

end PF
