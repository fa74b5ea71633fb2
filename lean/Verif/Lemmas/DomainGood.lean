import Verif.Lemmas.DomainOps

/-! # Each operation on a domain keeps it consistent -/

namespace PF

theorem Domain.new_good (root : Elem) (id : Nat) (name : Str) : (Domain.new id name).Good root where
  at_ := by simp [Domain.new]
  nodup := by simp [Domain.new]
  ok := by simp [Domain.new]
  ids := by simp [Domain.new]
  last := by simp [Domain.new]
  keys := by simp [Domain.new, Domain.syncOf]
  covers := by simp [Domain.new]
  sorted := by simp [Domain.new]
  antichain := by simp [Domain.new]
  valid := by simp [Domain.new]

theorem Owns.up {root : Elem} (wf : root.WF) {p q : Pos} (hpq : p <+: q) {i : Nat} (hi : root.Owns q i) :
    root.Owns p i := by
  obtain ⟨e, o, he, ho, x1, x2⟩ := hi
  obtain ⟨r, rfl⟩ := hpq
  rw [Elem.at?_append] at he
  cases hf : root.at? p with
  | none => simp [hf] at he
  | some f =>
    obtain ⟨u, hu⟩ := Elem.offset_of_at (off := 0) hf
    refine ⟨f, u, hf, hu, ?_⟩
    rw [hf, Option.bind_some] at he
    rw [Elem.offset_append, hf, hu] at ho
    simp only [Option.bind_some] at ho
    rcases wf.at hf with hw | ⟨_, _, _, _, _, _, _, _, _, _, _, rfl, _⟩
    · have := hw.extent_nested he ho; omega
    · cases r with
      | nil =>
        simp only [Elem.at?, Option.some.injEq] at he
        simp only [Elem.offset, Option.some.injEq] at ho
        subst he ho; exact ⟨x1, x2⟩
      | cons => simp [Elem.at?] at he

/-- In an antichain at most one element owns a bit. -/
theorem Domain.Good.owner {root : Elem} (wf : root.WF) (fd : root.FieldsDisjoint) {d : Domain} (h : d.Good root)
    {p q : Pos} (hp : p ∈ d.elems) (hq : q ∈ d.elems) {i : Nat} (hi : root.Owns p i) (hj : root.Owns q i) : p = q := by
  apply Classical.byContradiction
  intro hne
  obtain ⟨e, o, he, ho, h1, h2⟩ := hi
  obtain ⟨f, u, hf, hu, h3, h4⟩ := hj
  have := wf.extent_disjoint fd he hf ho hu
    ⟨fun hpre => hne (h.antichain p hp q hq hpre), fun hpre => hne (h.antichain q hq p hp hpre).symm⟩
  omega

/-- Adding an element to a consistent domain, with the main blackboard. -/
theorem Domain.addElem_good {root e : Elem} (wf : root.WF) {d : Domain} (h : d.Good root) {att : Attached} {p : Pos}
    (hp : p ∉ d.elems) (hanc : ∀ q ∈ d.elems, ¬ q <+: p) (he : root.at? p = some e) {main : Board}
    (hm : main.length = root.footprint) :
    ∃ d' att', d.doAdd root att p (some main) = some (d', att') ∧ d'.Good root ∧
      d'.elems = d.elems.filter (fun q => ¬ Pos.isDescendantOf q p) ++ [p] ∧ d.SameHead d' ∧
      (att' = (att ++ [(p, d.id)]).filter
        (fun x => ¬ (x.2 = d.id ∧ x.1 ∈ d.elems.filter (fun q => Pos.isDescendantOf q p)))) ∧
      ∃ g : Config → Config, d'.configs = d.configs.map g ∧ ∀ c ∈ d.configs, Config.Same c (g c) ∧
        (∀ r, r ≠ p → ¬ Pos.isDescendantOf r p → (g c).area? r = c.area? r) ∧
        ∃ a, (g c).area? p = some a ∧
          (∀ i, root.Owns p i →
            (∀ q ∈ d.elems, Pos.isDescendantOf q p → ¬ root.Owns q i) → a.value root i = main.bit i) ∧
          (root.FieldsDisjoint → ∀ q ∈ d.elems, Pos.isDescendantOf q p → ∀ i, root.Owns q i →
            ∃ b, c.area? q = some b ∧ a.value root i = b.value root i) := by
  obtain ⟨d', att', h1, h2, h3, h4, h5, g, h6, h7⟩ := Domain.doAdd_spec wf h.toMid (att := att) hp he (main := some main)
    (by intro b hb; simp only [Option.some.injEq] at hb; subst hb; exact hm)
  refine ⟨d', att', h1, ⟨h2, ?_, ?_⟩, h3, h4, h5, g, h6, ?_⟩
  · intro a ha b hb hab
    rw [h3] at ha hb
    simp only [List.mem_append, List.mem_filter, List.mem_cons, List.not_mem_nil, or_false, decide_eq_true_eq,
      Pos.isDescendantOf_iff, not_and, ne_eq, Decidable.not_not] at ha hb
    rcases ha with ⟨ha, ha'⟩ | rfl <;> rcases hb with ⟨hb, hb'⟩ | rfl
    · exact h.antichain a ha b hb hab
    · exact absurd hab (hanc a ha)
    · exact (hb' hab).symm
    · rfl
  · intro c hc
    rw [(h2.ok c hc).valid_iff]
    intro r a ha
    rw [h6] at hc
    obtain ⟨c0, hc0, rfl⟩ := List.mem_map.1 hc
    obtain ⟨x1, x2, b, x3, x4, x5, x6⟩ := h7 c0 hc0
    by_cases hr : r = p
    · subst hr
      rw [x3] at ha
      simp only [Option.some.injEq] at ha
      subst ha
      simpa using x4
    · by_cases hd : Pos.isDescendantOf r p = true
      · have hr' : r ∉ d'.elems := by
          rw [h3]; simp [hd, hr]
        have := (h2.ok _ (by rw [h6]; exact hc)).area_none hr'
        rw [this] at ha; simp at ha
      · rw [x2 r hr hd] at ha
        exact h.valid c0 hc0 a ((h.ok c0 hc0).area_iff.1 ha).1
  · intro c hc
    obtain ⟨x1, x2, b, x3, x4, x5, x6⟩ := h7 c hc
    refine ⟨x1, x2, b, x3, x5 main rfl, ?_⟩
    intro fd q hq hqd i hi
    exact x6 q hq hqd i hi (fun q' hq' _ hi' => h.owner wf fd hq' hq hi' hi)

theorem Domain.removeElem_good {root : Elem} {d : Domain} (h : d.Good root) {att : Attached} {p : Pos}
    (hp : p ∈ d.elems) :
    ∃ d', d.removeElem att p = .ok (d', att.filter (· ≠ (p, d.id))) ∧ d'.Good root ∧
      d'.elems = d.elems.filter (· ≠ p) ∧ d.SameHead d' ∧
      ∃ g : Config → Config, d'.configs = d.configs.map g ∧ ∀ c ∈ d.configs, Config.Same c (g c) ∧
        (∀ q, q ≠ p → (g c).area? q = c.area? q) ∧
        (g c).areas.map Area.elem = (c.areas.map Area.elem).filter (· ≠ p) := by
  obtain ⟨d', h1, h2, h3, h4, g, h5, h6⟩ := Domain.doRemove_spec h.toMid (att := att) hp true
  refine ⟨d', ?_, ⟨h2, ?_, ?_⟩, h3, h4, g, h5, fun c hc => ⟨(h6 c hc).1, (h6 c hc).2.1, (h6 c hc).2.2.1⟩⟩
  · simp [Domain.removeElem, hp, h1]
  · intro a ha b hb hab
    rw [h3] at ha hb
    exact h.antichain a (List.mem_filter.1 ha).1 b (List.mem_filter.1 hb).1 hab
  · intro c hc a ha
    rw [h5] at hc
    obtain ⟨c0, hc0, rfl⟩ := List.mem_map.1 hc
    exact h.valid c0 hc0 a ((h6 c0 hc0).2.2.2 a ha)

theorem Elem.mem_childPositions {root : Elem} {p q : Pos} (hq : q ∈ root.childPositions p) :
    ∃ i e, q = p ++ [i] ∧ root.at? q = some e := by
  unfold Elem.childPositions at hq
  split at hq
  · simp at hq
  · rename_i e he
    obtain ⟨i, hi, rfl⟩ := List.mem_map.1 hq
    rw [List.mem_range] at hi
    refine ⟨i, e.children[i], rfl, ?_⟩
    rw [Elem.at?_append, he, Option.bind_some, Elem.at?_single, List.getElem?_eq_getElem hi]

theorem Elem.childPositions_nodup (root : Elem) (p : Pos) : (root.childPositions p).Nodup := by
  unfold Elem.childPositions
  split
  · simp
  · rw [List.nodup_iff_pairwise_ne, List.pairwise_map]
    refine (List.nodup_iff_pairwise_ne.1 List.nodup_range).imp ?_
    intro a b hab heq
    exact hab (by simpa using heq)

/-- Adding the children of an element before a split. -/
theorem Domain.addAll_spec {root : Elem} (wf : root.WF) {qs : List Pos} {d : Domain} (h : d.Mid root) {att : Attached}
    (nd : qs.Nodup) (hq : ∀ q ∈ qs, q ∉ d.elems) (hat : ∀ q ∈ qs, ∃ e, root.at? q = some e)
    (hdesc : ∀ q ∈ qs, ∀ r, r ∈ d.elems ∨ r ∈ qs → ¬ Pos.isDescendantOf r q) :
    ∃ d', d.addAll root qs att = some (d', att ++ qs.map (fun q => (q, d.id))) ∧ d'.Mid root ∧
      d'.elems = d.elems ++ qs ∧ d.SameHead d' ∧
      ∃ g : Config → Config, d'.configs = d.configs.map g ∧ ∀ c ∈ d.configs, Config.Same c (g c) ∧
        (∀ r, r ∉ qs → (g c).area? r = c.area? r) := by
  induction qs generalizing d att with
  | nil => exact ⟨d, by simp [Domain.addAll], h, by simp, ⟨rfl, rfl, rfl, rfl⟩, fun c => c, by simp,
      fun c _ => ⟨Config.Same.refl c, fun _ _ => rfl⟩⟩
  | cons q qs ih =>
    rw [List.nodup_cons] at nd
    obtain ⟨e, he⟩ := hat q (by simp)
    obtain ⟨d1, att1, h1, h2, h3, h4, h5, g1, h6, h7⟩ := Domain.doAdd_spec wf h (att := att) (hq q (by simp)) he
      (main := none) (by simp)
    have hfil : d.elems.filter (fun r => ¬ Pos.isDescendantOf r q) = d.elems := by
      rw [List.filter_eq_self]
      intro r hr
      have := hdesc q (by simp) r (.inl hr)
      simpa using this
    have hfil2 : d.elems.filter (fun r => Pos.isDescendantOf r q) = [] := by
      rw [List.filter_eq_nil_iff]
      intro r hr
      exact hdesc q (by simp) r (.inl hr)
    rw [hfil] at h3
    rw [hfil2] at h5
    have h5' : att1 = att ++ [(q, d.id)] := by
      rw [h5]; simp [filter_true]
    subst h5'
    obtain ⟨d2, k1, k2, k3, k4, g2, k5, k6⟩ := ih h2 (att := att ++ [(q, d.id)]) nd.2
      (by
        intro r hr hm
        rw [h3] at hm
        simp only [List.mem_append, List.mem_cons, List.not_mem_nil, or_false] at hm
        rcases hm with hm | rfl
        · exact hq r (by simp [hr]) hm
        · exact nd.1 hr)
      (fun r hr => hat r (by simp [hr]))
      (by
        intro r hr s hs
        refine hdesc r (by simp [hr]) s ?_
        rw [h3] at hs
        simp only [List.mem_append, List.mem_cons, List.not_mem_nil, or_false] at hs ⊢
        rcases hs with (hs | hs) | hs
        · exact .inl hs
        · exact .inr (.inl hs)
        · exact .inr (.inr hs))
    refine ⟨d2, ?_, k2, ?_, ?_, g2 ∘ g1, ?_, ?_⟩
    · simp only [Domain.addAll, h1, k1, h4.id]
      simp
    · rw [k3, h3]; simp
    · exact ⟨k4.id.trans h4.id, k4.name.trans h4.name, k4.seqAware.trans h4.seqAware, k4.last.trans h4.last⟩
    · rw [k5, h6, List.map_map]
    · intro c hc
      obtain ⟨x1, x2, _⟩ := h7 c hc
      obtain ⟨y1, y2⟩ := k6 (g1 c) (by rw [h6]; exact List.mem_map.2 ⟨c, hc, rfl⟩)
      refine ⟨x1.trans y1, ?_⟩
      intro r hr
      simp only [List.mem_cons, not_or] at hr
      show (g2 (g1 c)).area? r = _
      rw [y2 r hr.2]
      by_cases hd : Pos.isDescendantOf r q = true
      · -- no such element has an area
        have n1 : r ∉ d1.elems := by
          intro hm; rw [h3] at hm
          simp only [List.mem_append, List.mem_cons, List.not_mem_nil, or_false] at hm
          rcases hm with hm | hm
          · exact hdesc q (by simp) r (.inl hm) hd
          · exact hr.1 hm
        have n2 : r ∉ d.elems := fun hm => hdesc q (by simp) r (.inl hm) hd
        rw [(h2.ok _ (by rw [h6]; exact List.mem_map.2 ⟨c, hc, rfl⟩)).area_none n1, (h.ok c hc).area_none n2]
      · exact x2 r hr.1 hd

theorem Domain.split_good {root : Elem} (wf : root.WF) {d : Domain} (h : d.Good root) {att : Attached} {p : Pos}
    (hp : p ∈ d.elems) (hne : root.childPositions p ≠ []) :
    ∃ d', d.split root att p =
        .ok (d', (att ++ (root.childPositions p).map (fun q => (q, d.id))).filter (· ≠ (p, d.id))) ∧
      d'.Good root ∧
      d'.elems = (d.elems ++ root.childPositions p).filter (· ≠ p) ∧ d.SameHead d' ∧
      ∃ g : Config → Config, d'.configs = d.configs.map g ∧ ∀ c ∈ d.configs, Config.Same c (g c) ∧
        (∀ r, r ≠ p → r ∉ root.childPositions p → (g c).area? r = c.area? r) ∧
        ∃ a, c.area? p = some a ∧ ∀ q ∈ root.childPositions p, ∃ b, (g c).area? q = some b ∧
          ∀ i, root.Owns q i → b.value root i = a.value root i := by
  have hch : ∀ q ∈ root.childPositions p, ∃ i e, q = p ++ [i] ∧ root.at? q = some e :=
    fun q hq => Elem.mem_childPositions hq
  have hpre : ∀ q ∈ root.childPositions p, p <+: q ∧ q ≠ p := by
    intro q hq
    obtain ⟨i, _, rfl, _⟩ := hch q hq
    exact ⟨⟨[i], rfl⟩, by simp⟩
  have hnotin : ∀ q ∈ root.childPositions p, q ∉ d.elems := by
    intro q hq hm
    exact (hpre q hq).2 (h.antichain p hp q hm (hpre q hq).1).symm
  obtain ⟨d1, h1, h2, h3, h4, g1, h5, h6⟩ := Domain.addAll_spec wf h.toMid (att := att)
    (root.childPositions_nodup p) hnotin (fun q hq => by obtain ⟨_, e, _, he⟩ := hch q hq; exact ⟨e, he⟩)
    (by
      intro q hq r hr hd
      obtain ⟨i, _, rfl, _⟩ := hch q hq
      obtain ⟨hd1, hd2⟩ := (Pos.isDescendantOf_iff _ _).1 hd
      rcases hr with hr | hr
      · have hpr : p <+: r := List.IsPrefix.trans ⟨[i], rfl⟩ hd1
        have := h.antichain p hp r hr hpr
        subst this
        have := hd1.length_le
        simp at this
        omega
      · obtain ⟨j, _, rfl, _⟩ := hch r hr
        exact hd2 (hd1.eq_of_length (by simp)).symm)
  -- the split of each configuration
  have hs : ∀ c ∈ d1.configs, ∃ c', c.split root p = some c' ∧ c.Same c' ∧ c'.OK root d1.elems ∧
      (∀ q, q ∉ root.childPositions p → c'.area? q = c.area? q) ∧
      ∃ a, c.area? p = some a ∧ ∀ q ∈ root.childPositions p, ∃ b, c'.area? q = some b ∧ b.valid = true ∧
        ∀ i, root.Owns q i → b.value root i = a.value root i := by
    intro c hc
    have ok := h2.ok c hc
    obtain ⟨a, ha, hsa, hea⟩ := ok.area (p := p) (by rw [h3]; simp [hp])
    obtain ⟨c', x1, x2, x3, x4, x5⟩ := Config.splitLoop_spec wf (f := a) ok hsa (root.childPositions_nodup p)
      (fun q hq => by rw [h3]; simp [hq])
      (fun q hq => by rw [hea, Pos.isDescendantOf_iff]; exact hpre q hq)
    exact ⟨c', by simp only [Config.split, ha, x1], x2, x3, x4, a, ha, x5⟩
  obtain ⟨g2, k1, k2⟩ := Domain.mapConfigs_spec (d := d1) (f := Config.split root p)
    (fun c hc => by obtain ⟨c', x, _⟩ := hs c hc; exact ⟨c', x⟩)
  have hs' : ∀ c ∈ d1.configs, c.Same (g2 c) ∧ (g2 c).OK root d1.elems ∧
      (∀ q, q ∉ root.childPositions p → (g2 c).area? q = c.area? q) ∧
      ∃ a, c.area? p = some a ∧ ∀ q ∈ root.childPositions p, ∃ b, (g2 c).area? q = some b ∧ b.valid = true ∧
        ∀ i, root.Owns q i → b.value root i = a.value root i := by
    intro c hc
    obtain ⟨c', x1, x2⟩ := hs c hc
    rw [k2 c hc] at x1
    simp only [Option.some.injEq] at x1
    subst x1; exact x2
  have mid2 : Domain.Mid root { d1 with configs := d1.configs.map g2 } := by
    refine ⟨h2.at_, h2.nodup, ?_, ?_, ?_, h2.keys, h2.covers, h2.sorted⟩
    · intro c hc
      obtain ⟨c0, hc0, rfl⟩ := List.mem_map.1 hc
      exact (hs' c0 hc0).2.1
    · show ((d1.configs.map g2).map Config.id).Nodup
      rw [map_ids (fun c hc => (hs' c hc).1)]; exact h2.ids
    · intro i hi
      show i ∈ (d1.configs.map g2).map Config.id
      rw [map_ids (fun c hc => (hs' c hc).1)]; exact h2.last i hi
  obtain ⟨d3, j1, j2, j3, j4, g3, j5, j6⟩ := Domain.doRemove_spec mid2
    (att := att ++ (root.childPositions p).map (fun q => (q, d.id))) (p := p) (by show p ∈ d1.elems; rw [h3]; simp [hp]) false
  have hpn : p ∉ root.childPositions p := fun hm => (hpre p hm).2 rfl
  have hcfg : d3.configs = d.configs.map (fun c => g3 (g2 (g1 c))) := by
    rw [j5]; show (d1.configs.map g2).map g3 = _
    rw [h5]; simp [List.map_map, Function.comp_def]
  have hfin : ∀ c ∈ d.configs, Config.Same c (g3 (g2 (g1 c))) ∧
        (∀ r, r ≠ p → r ∉ root.childPositions p → (g3 (g2 (g1 c))).area? r = c.area? r) ∧
        ∃ a, c.area? p = some a ∧ ∀ q ∈ root.childPositions p, ∃ b, (g3 (g2 (g1 c))).area? q = some b ∧
          b.valid = true ∧ ∀ i, root.Owns q i → b.value root i = a.value root i := by
    intro c hc
    obtain ⟨x1, x2⟩ := h6 c hc
    have m1 : g1 c ∈ d1.configs := by rw [h5]; exact List.mem_map.2 ⟨c, hc, rfl⟩
    obtain ⟨y1, _, y3, a, y4, y5⟩ := hs' _ m1
    obtain ⟨z1, z2, _⟩ := j6 (g2 (g1 c)) (List.mem_map.2 ⟨_, m1, rfl⟩)
    refine ⟨(x1.trans y1).trans z1, ?_, a, ?_, ?_⟩
    · intro r hr hr'
      rw [z2 r hr, y3 r hr', x2 r hr']
    · rw [← x2 p hpn]; exact y4
    · intro q hq
      obtain ⟨b, w1, w2, w3⟩ := y5 q hq
      exact ⟨b, by rw [z2 q (hpre q hq).2]; exact w1, w2, w3⟩
  refine ⟨d3, ?_, ⟨j2, ?_, ?_⟩, ?_, ?_, _, hcfg, ?_⟩
  · simp only [Domain.split, hp, not_true, if_false, hne, h1, k1]
    have : ({ d1 with configs := d1.configs.map g2 } : Domain).id = d.id := h4.id
    rw [j1, this]
  · intro a ha b hb hab
    rw [j3] at ha hb
    obtain ⟨ha1, ha2⟩ := List.mem_filter.1 ha
    obtain ⟨hb1, hb2⟩ := List.mem_filter.1 hb
    simp only [decide_eq_true_eq] at ha2 hb2
    change a ∈ d1.elems at ha1
    change b ∈ d1.elems at hb1
    rw [h3, List.mem_append] at ha1 hb1
    rcases ha1 with ha1 | ha1 <;> rcases hb1 with hb1 | hb1
    · exact h.antichain a ha1 b hb1 hab
    · -- an associated element above a child would be above the split one
      obtain ⟨i, _, rfl, _⟩ := hch b hb1
      by_cases hlen : a.length ≤ p.length
      · have : a <+: p := List.prefix_of_prefix_length_le hab ⟨[i], rfl⟩ hlen
        exact absurd (h.antichain a ha1 p hp this) ha2
      · have : a = p ++ [i] := hab.eq_of_length (by have := hab.length_le; simp at this ⊢; omega)
        exact this
    · have := List.IsPrefix.trans (hpre a ha1).1 hab
      exact absurd (h.antichain p hp b hb1 this).symm hb2
    · obtain ⟨i, _, rfl, _⟩ := hch a ha1
      obtain ⟨j, _, rfl, _⟩ := hch b hb1
      exact hab.eq_of_length (by simp)
  · intro c hc
    rw [(j2.ok c hc).valid_iff]
    intro r a ha
    rw [hcfg] at hc
    obtain ⟨c0, hc0, rfl⟩ := List.mem_map.1 hc
    obtain ⟨x1, x2, a0, x3, x4⟩ := hfin c0 hc0
    by_cases hr : r = p
    · subst hr
      have hr' : r ∉ d3.elems := by rw [j3]; simp
      rw [(j2.ok _ (by rw [hcfg]; exact hc)).area_none hr'] at ha; simp at ha
    · by_cases hq : r ∈ root.childPositions p
      · obtain ⟨b, w1, w2, _⟩ := x4 r hq
        rw [w1] at ha
        simp only [Option.some.injEq] at ha
        subst ha; exact w2
      · rw [x2 r hr hq] at ha
        exact h.valid c0 hc0 a ((h.ok c0 hc0).area_iff.1 ha).1
  · rw [j3]; show d1.elems.filter _ = _; rw [h3]
  · exact ⟨j4.id.trans h4.id, j4.name.trans h4.name, j4.seqAware.trans h4.seqAware, j4.last.trans h4.last⟩
  · intro c hc
    obtain ⟨x1, x2, a, x3, x4⟩ := hfin c hc
    refine ⟨x1, x2, a, x3, ?_⟩
    intro q hq
    obtain ⟨b, w1, _, w3⟩ := x4 q hq
    exact ⟨b, w1, w3⟩

end PF
