import Verif.Lemmas.Plan

/-! # What an application writes, for any state that meets the invariants -/

namespace PF
open Spec

/-- After an application, every bit of an element of a domain that switched is the one stored in
the configuration it switched to (provided no other domain that switches has the bit too). -/
theorem St.Inv.apply_value {env : Env} (wf : env.root.WF) (fd : env.root.FieldsDisjoint)
    {st st' : St} (inv : st.Inv env.root) (force : Bool) {o : Out Unit}
    (ha : st.apply env.root env.hw force = (o, st')) {d : Domain} (hd : d ∈ st.domains) {c : Config}
    (hs : Switches st.criteria force d c) {a : Area} (hca : a ∈ c.areas) {i : Nat} (hi : env.root.Owns a.elem i)
    (hother : ∀ d' ∈ st.domains, d' ≠ d → ∀ c', Switches st.criteria force d' c' → ∀ q ∈ d'.elems, ¬ env.root.Owns q i) :
    st'.mem.main.bit i = a.value env.root i := by
  obtain ⟨as, b1, ss, as', ev, b2, h1, h2, h3, h4, h5, h6, h7⟩ :=
    applyDomains_trace wf env.hw force inv.good inv.rules inv.main (resyncSet_sorted env.root st.asked)
  simp only [St.apply, h1, Prod.mk.injEq] at ha
  obtain ⟨rfl, rfl⟩ := ha
  show b2.bit i = _
  have hw2 := h3.append h7.written
  refine hw2.value (i := i) ?_ ?_
  · intro a' ha' hi'
    have : ∃ d' ∈ st.domains, ∃ c', Switches st.criteria force d' c' ∧ a' ∈ c'.areas := by
      rcases List.mem_append.1 ha' with ha' | ha'
      · obtain ⟨d', hd', _, c', hc', hx⟩ := (h2.mem_iff a').1 ha'; exact ⟨d', hd', c', hc', hx⟩
      · obtain ⟨d', hd', _, c', hc', hx⟩ := (h6.mem_iff a').1 ha'; exact ⟨d', hd', c', hc', hx⟩
    obtain ⟨d', hd', c', hc', hx⟩ := this
    by_cases hdd : d' = d
    · subst hdd
      have := hc'.unique hs
      subst this
      have g := inv.good d' hd'
      have ok := g.ok c' hs.mem
      have := g.owner wf fd (p := a'.elem) (q := a.elem) ((ok.mem _).1 (List.mem_map.2 ⟨a', hx, rfl⟩))
        ((ok.mem _).1 (List.mem_map.2 ⟨a, hca, rfl⟩)) hi' hi
      have h8 := ok.area_iff.2 ⟨hx, rfl⟩
      rw [this, ok.area_iff.2 ⟨hca, rfl⟩] at h8
      simp only [Option.some.injEq] at h8
      rw [h8]
    · have ok := (inv.good d' hd').ok c' hc'.mem
      exact absurd hi' (hother d' hd' hdd c' hc' a'.elem ((ok.mem _).1 (List.mem_map.2 ⟨a', hx, rfl⟩)))
  · refine ⟨a, ?_, hi⟩
    rw [List.mem_append, h2.mem_iff, h6.mem_iff]
    cases hq : d.seqAware
    · exact .inl ⟨d, hd, hq, c, hs, hca⟩
    · exact .inr ⟨d, hd, hq, c, hs, hca⟩

/-- A bit of the main blackboard that belongs to no element of a domain that switches is
unchanged; the size of the blackboard too. -/
theorem St.Inv.apply_frame {env : Env} (wf : env.root.WF) {st st' : St}
    (inv : st.Inv env.root) (force : Bool) {o : Out Unit} (ha : st.apply env.root env.hw force = (o, st')) :
    st'.mem.main.length = st.mem.main.length ∧
    ∀ i, (∀ d ∈ st.domains, ∀ c, Switches st.criteria force d c → ∀ q ∈ d.elems, ¬ env.root.Owns q i) →
      st'.mem.main.bit i = st.mem.main.bit i := by
  obtain ⟨as, b1, ss, as', ev, b2, h1, h2, h3, h4, h5, h6, h7⟩ :=
    applyDomains_trace wf env.hw force inv.good inv.rules inv.main (resyncSet_sorted env.root st.asked)
  simp only [St.apply, h1, Prod.mk.injEq] at ha
  obtain ⟨rfl, rfl⟩ := ha
  have hw2 := h3.append h7.written
  refine ⟨hw2.length, ?_⟩
  intro i hno
  refine hw2.frame ?_
  intro a' ha' hi'
  have : ∃ d' ∈ st.domains, ∃ c', Switches st.criteria force d' c' ∧ a' ∈ c'.areas := by
    rcases List.mem_append.1 ha' with ha' | ha'
    · obtain ⟨d', hd', _, c', hc', hx⟩ := (h2.mem_iff a').1 ha'; exact ⟨d', hd', c', hc', hx⟩
    · obtain ⟨d', hd', _, c', hc', hx⟩ := (h6.mem_iff a').1 ha'; exact ⟨d', hd', c', hc', hx⟩
  obtain ⟨d', hd', c', hc', hx⟩ := this
  exact hno d' hd' c' hc' a'.elem (((inv.good d' hd').ok c' hc'.mem).mem _ |>.1 (List.mem_map.2 ⟨a', hx, rfl⟩)) hi'

end PF
