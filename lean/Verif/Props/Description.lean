import Verif.Spec.Description
import Verif.Spec.SampleDomain
import Verif.Lemmas.StructureExport
import Verif.Lemmas.XmlRoundTrip

/-!
# C87: documents that describe criteria and structures
-/

namespace PF
open Spec

theorem alike_map {α β : Type} {R : β → α → Prop} {f : α → β} {l : List α} (h : ∀ a ∈ l, R (f a) a) :
    Spec.Alike R (l.map f) l := by
  refine ⟨List.length_map _, fun k b a hb ha => ?_⟩
  rw [List.getElem?_map, ha] at hb
  obtain rfl := Option.some.inj hb
  exact h a (List.mem_of_getElem? ha)

theorem valuePair_describes (p : Str × BitVec 32) : DescribesValue (valuePairXml p) p :=
  ⟨rfl, rfl, _, rfl, plainInt_intText _⟩

/-- **C87 (criterion).**  The element of a criterion describes it. -/
theorem C87_criterion (c : Criterion) : DescribesCriterion c.toXml c where
  tag := rfl
  name := by
    unfold Xml.nameAttr Xml.attrText Xml.attr Criterion.toXml
    by_cases h : c.name = []
    · simp [h, nameAttrs, Xml.attrs, show (s "Value" == s "Name") = false by decide, show (s "Kind" == s "Name") = false by decide]
    · simp [h, nameAttrs, Xml.attrs, show (s "Value" == s "Name") = false by decide, show (s "Kind" == s "Name") = false by decide]
  kind := by
    cases h : c.type.inclusive
    · refine .inr ⟨?_, rfl⟩
      simp [Xml.attr, Criterion.toXml, Xml.attrs, h, show (s "Value" == s "Kind") = false by decide]
    · refine .inl ⟨?_, rfl⟩
      simp [Xml.attr, Criterion.toXml, Xml.attrs, h, show (s "Value" == s "Kind") = false by decide]
  state := rfl
  values := alike_map fun p _ => valuePair_describes p

/-- **C87 (criteria).**  The document of the criteria has one element for each criterion, in the order in which the criteria were
created, and each describes its criterion; and that is what the command answers. -/
theorem C87_criteria (cs : List Criterion) :
    (criteriaXml cs).tag = s "SelectionCriteria" ∧ Spec.Alike DescribesCriterion (criteriaXml cs).children cs :=
  ⟨rfl, alike_map fun c _ => C87_criterion c⟩

/-- **C87 (no ambiguity).**  Two lists of criteria whose documents are the same are the same but for the numbers of modifications
and the parts of the states that have no text. -/
theorem C87_faithful {cs cs' : List Criterion} (h : criteriaXml cs = criteriaXml cs') :
    Spec.Alike (fun c c' => c'.name = c.name ∧ c'.type = c.type ∧ c'.type.formattedState c'.state = c.type.formattedState c.state)
      cs cs' := by
  have h1 := (C87_criteria cs).2
  have h2 := (C87_criteria cs').2
  rw [← h] at h2
  refine ⟨h1.1.symm.trans h2.1, fun k c c' hc hc' => ?_⟩
  obtain ⟨x, hx⟩ : ∃ x, (criteriaXml cs).children[k]? = some x := by
    have := (List.getElem?_eq_some_iff.1 hc).1
    exact ⟨_, List.getElem?_eq_getElem (by rw [h1.1]; exact this)⟩
  have d1 := h1.2 k x c hx hc
  have d2 := h2.2 k x c' hx hc'
  refine ⟨d2.name.symm.trans d1.name, ?_, ?_⟩
  · have hi : c'.type.inclusive = c.type.inclusive := by
      have hne : s "Inclusive" ≠ s "Exclusive" := by decide
      rcases d1.kind with ⟨a, a'⟩ | ⟨a, a'⟩ <;> rcases d2.kind with ⟨b, b'⟩ | ⟨b, b'⟩ <;> rw [a] at b <;>
        first
        | exact b'.trans a'.symm
        | exact absurd (Option.some.inj b) hne
        | exact absurd (Option.some.inj b).symm hne
    have hm : c'.type.map = c.type.map := by
      have v1 := d1.values
      have v2 := d2.values
      apply List.ext_getElem?
      intro i
      cases hp : c.type.map[i]? with
      | none =>
        rw [List.getElem?_eq_none_iff] at hp ⊢
        rw [← v2.1, v1.1]; exact hp
      | some p =>
        have hlt := (List.getElem?_eq_some_iff.1 hp).1
        have hlt' : i < c'.type.map.length := by rw [← v2.1, v1.1]; exact hlt
        have hltx : i < x.children.length := by rw [v1.1]; exact hlt
        rw [List.getElem?_eq_getElem hlt']
        obtain ⟨-, a1, t1, a2, a3⟩ := v1.2 i _ _ (List.getElem?_eq_getElem hltx) hp
        obtain ⟨-, b1, t2, b2, b3⟩ := v2.2 i _ _ (List.getElem?_eq_getElem hltx) (List.getElem?_eq_getElem hlt')
        rw [a1] at b1
        rw [a2] at b2
        obtain rfl := Option.some.inj b2
        congr 1
        refine Prod.ext (Option.some.inj b1).symm ?_
        exact BitVec.eq_of_toInt_eq (b3.unique a3)
    cases hc1 : c.type with
    | mk i m =>
      cases hc2 : c'.type with
      | mk i' m' =>
        rw [hc1, hc2] at hi hm
        simp only at hi hm
        rw [hi, hm]
  · have := d2.state.symm.trans d1.state
    exact Option.some.inj this

/-- The document of the sample: the second criterion is a mode, in a call, with its two values. -/
example : ∃ x, (criteriaXml Sample.criteria).children[1]? = some x ∧ x.nameAttr = s "Mode" ∧
    x.attr (s "Value") = some (s "InCall") ∧ x.children.map (fun v => v.attr (s "Numerical")) = [some (s "0"), some (s "3")] :=
  ⟨_, rfl, by decide +kernel, by decide +kernel, by decide +kernel⟩

mutual
theorem SXml.xml_shows : (y : SXml) → Shows y.xml y
  | .mk tag attrs cs => by
    have h := SXml.xmls_shows cs
    unfold SXml.xml
    exact .mk rfl rfl rfl h.1 h.2
theorem SXml.xmls_shows : (ys : List SXml) → (SXml.xmls ys).length = ys.length ∧
    ∀ (i : Nat) a b, (SXml.xmls ys)[i]? = some a → ys[i]? = some b → Shows a b
  | [] => by simp [SXml.xmls]
  | y :: ys => by
    have h1 := SXml.xml_shows y
    have h2 := SXml.xmls_shows ys
    unfold SXml.xmls
    refine ⟨by simp [h2.1], fun i a b ha hb => ?_⟩
    cases i with
    | zero =>
      simp only [List.getElem?_cons_zero, Option.some.injEq] at ha hb
      subst ha hb
      exact h1
    | succ i =>
      simp only [List.getElem?_cons_succ] at ha hb
      exact h2.2 i a b ha hb
end

/-- **C87 (structure).**  The documents of structures that the commands answer show the elements of the structure (C78 says what
these describe), all of them and in their order. -/
theorem C87_structure (e : Elem) : Shows e.structureXml.xml e.structureXml := SXml.xml_shows _

end PF
