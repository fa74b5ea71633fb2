import Verif.Lemmas.SyncExact

/-! # What the plan of an application contains; applying again -/

namespace PF
open Spec

theorem Spec.Switches.unique {cs : List Criterion} {force : Bool} {d : Domain} {c c' : Config}
    (h : Switches cs force d c) (h' : Switches cs force d c') : c = c' := h.1.unique h'.1

theorem Spec.Switches.mem {cs : List Criterion} {force : Bool} {d : Domain} {c : Config}
    (h : Switches cs force d c) : c ∈ d.configs := by
  obtain ⟨pre, post, he, _⟩ := h.1
  rw [he]; simp

theorem Spec.Plan.mem_iff {cs : List Criterion} {force aware : Bool} {ds : List Domain} {as : List Area}
    (h : Plan cs force aware ds as) (a : Area) :
    a ∈ as ↔ ∃ d ∈ ds, d.seqAware = aware ∧ ∃ c, Switches cs force d c ∧ a ∈ c.areas := by
  induction h with
  | nil => simp
  | skip d ds as hs rest ih =>
    rw [ih]
    constructor
    · rintro ⟨d', hd', x⟩; exact ⟨d', by simp [hd'], x⟩
    · rintro ⟨d', hd', ha, c, hc, hx⟩
      rcases List.mem_cons.1 hd' with rfl | hd'
      · rcases hs with hs | hs
        · exact absurd ha hs
        · exact absurd hc (hs c)
      · exact ⟨d', hd', ha, c, hc, hx⟩
  | switch d ds c as ha hs rest ih =>
    rw [List.mem_append, ih]
    constructor
    · rintro (hx | ⟨d', hd', x⟩)
      · exact ⟨d, by simp, ha, c, hs, hx⟩
      · exact ⟨d', by simp [hd'], x⟩
    · rintro ⟨d', hd', ha', c', hc', hx⟩
      rcases List.mem_cons.1 hd' with rfl | hd'
      · rw [hs.unique hc']; exact .inl hx
      · exact .inr ⟨d', hd', ha', c', hc', hx⟩

theorem Spec.Plan.nil_of {cs : List Criterion} {force aware : Bool} {ds : List Domain} {as : List Area}
    (h : Plan cs force aware ds as) (hn : ∀ d ∈ ds, ∀ c, ¬ Switches cs force d c) : as = [] := by
  rw [List.eq_nil_iff_forall_not_mem]
  intro a ha
  obtain ⟨d, hd, _, c, hc, _⟩ := (h.mem_iff a).1 ha
  exact hn d hd c hc

theorem Spec.WrittenAll.nil_eq {root : Elem} {b b' : Board} (h : WrittenAll root [] b b') : b' = b := by
  cases h; rfl

theorem Spec.ElementByElement.nil_eq {root : Elem} {b b' : Board} {ev : List SyncEvent}
    (h : ElementByElement root [] b ev b') : b' = b ∧ ev = [] := by
  cases h; exact ⟨rfl, rfl⟩

/-- When no domain has to switch an application resets the modification counts of the criteria and calls
the syncers of the subsystems that ask for a resynchronisation. -/
theorem St.Inv.apply_idle_asked {root : Elem} (wf : root.WF) {st : St} (h : st.Inv root) (hw : Hardware)
    (hn : ∀ d ∈ st.domains, ∀ c, ¬ Switches st.criteria false d c) :
    ∃ ss : SyncerSet, (∀ x, x ∈ ss ↔ x ∈ root.resyncSet st.asked) ∧ ss.Nodup ∧
      st.apply root hw false = (.ok (), { st with
        criteria := st.criteria.map Criterion.resetModified
        mem := ⟨st.mem.main, st.mem.log ++ ss.map (fun x => ⟨x, st.mem.main⟩)⟩
        asked := [] }) := by
  obtain ⟨as, b1, ss, as', ev, b2, h1, h2, h3, h4, h5, h6, h7⟩ := applyDomains_trace wf hw false h.good h.rules h.main
    (resyncSet_sorted root st.asked)
  have e1 := h2.nil_of hn
  subst e1
  have e2 := h6.nil_of hn
  subst e2
  have e3 := h3.nil_eq
  subst e3
  obtain ⟨rfl, rfl⟩ := h7.nil_eq
  refine ⟨ss, ?_, h5, ?_⟩
  · intro x
    rw [h4]
    constructor
    · rintro (hx | ⟨d, hd, _, ⟨c, hc⟩, _⟩)
      · exact hx
      · exact absurd hc (hn d hd c)
    · exact .inl
  have e5 : st.domains.map (Domain.target st.criteria false) = st.domains := by
    conv => rhs; rw [← List.map_id st.domains]
    apply List.map_congr_left
    intro d hd
    show d.target st.criteria false = d
    obtain ⟨t1, t2⟩ := Domain.target_spec (force := false) (h.rules d hd)
    have hl : (d.target st.criteria false).last = d.last := by
      by_cases hc : ∃ c, FirstQualifying st.criteria d.configs c
      · obtain ⟨c, hc⟩ := hc
        rw [t1 c hc]
        by_cases hx : d.last = some c.id
        · exact hx.symm
        · exact absurd ⟨hc, .inr hx⟩ (hn d hd c)
      · rw [t2 (fun c hx => hc ⟨c, hx⟩)]; simp
    show ({ d with last := (d.target st.criteria false).last } : Domain) = d
    rw [hl]
  simp only [St.apply, h1, e5, List.append_nil]

/-- When no domain has to switch and no subsystem asks, an application only resets the modification counts
of the criteria. -/
theorem St.Inv.apply_idle {root : Elem} (wf : root.WF) {st : St} (h : st.Inv root) (hw : Hardware)
    (hn : ∀ d ∈ st.domains, ∀ c, ¬ Switches st.criteria false d c) (hq : st.asked = []) :
    st.apply root hw false = (.ok (), { st with criteria := st.criteria.map Criterion.resetModified }) := by
  obtain ⟨ss, h1, _, h2⟩ := h.apply_idle_asked wf hw hn
  have : ss = [] := by
    rw [List.eq_nil_iff_forall_not_mem]
    intro x hx
    rw [h1, hq] at hx
    obtain ⟨i, hi, _⟩ := mem_resyncSet.1 hx
    simp at hi
  subst this
  rw [h2]
  obtain ⟨mem, criteria, domains, attached, nextId, asked⟩ := st
  simp only at hq
  subst hq
  simp

end PF
