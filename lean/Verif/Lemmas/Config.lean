import Verif.Lemmas.Area

/-! # Operations on one configuration -/

namespace PF

theorem mapAll_total {α : Type} {f : α → Option α} {l : List α} (h : ∀ a ∈ l, ∃ b, f a = some b) :
    mapAll f l = some (l.map fun a => (f a).getD a) := by
  induction l with
  | nil => rfl
  | cons a l ih =>
    obtain ⟨b, hb⟩ := h a (by simp)
    simp [mapAll, hb, ih (fun x hx => h x (by simp [hx]))]

/-- Same address, name and rule. -/
def Config.Same (c c' : Config) : Prop := c'.id = c.id ∧ c'.name = c.name ∧ c'.rule = c.rule

theorem Config.Same.refl (c : Config) : c.Same c := ⟨rfl, rfl, rfl⟩
theorem Config.Same.trans {a b c : Config} (h1 : a.Same b) (h2 : b.Same c) : a.Same c :=
  ⟨h2.1.trans h1.1, h2.2.1.trans h1.2.1, h2.2.2.trans h1.2.2⟩

/-- The areas of a configuration are those of the given elements, one each, of the right size. -/
structure Config.OK (root : Elem) (E : List Pos) (c : Config) : Prop where
  nodup : (c.areas.map Area.elem).Nodup
  mem : ∀ p, p ∈ c.areas.map Area.elem ↔ p ∈ E
  sized : ∀ a ∈ c.areas, a.Sized root

theorem Config.OK.congr {root : Elem} {E F : List Pos} {c : Config} (h : c.OK root E) (hEF : ∀ p, p ∈ E ↔ p ∈ F) :
    c.OK root F := ⟨h.nodup, fun p => (h.mem p).trans (hEF p), h.sized⟩

theorem find_elem {as : List Area} (nd : (as.map Area.elem).Nodup) {p : Pos} {a : Area} :
    as.find? (fun a => a.elem == p) = some a ↔ a ∈ as ∧ a.elem = p := by
  induction as with
  | nil => simp
  | cons b bs ih =>
    simp only [List.map_cons, List.nodup_cons, List.mem_map, not_exists, not_and] at nd
    rw [List.find?_cons]
    split
    · rename_i h
      simp only [beq_iff_eq] at h
      constructor
      · intro he; simp only [Option.some.injEq] at he; subst he; exact ⟨by simp, h⟩
      · rintro ⟨h1, h2⟩
        rcases List.mem_cons.1 h1 with rfl | h1
        · rfl
        · exact absurd (h2.trans h.symm) (nd.1 a h1)
    · rename_i h
      have h' : b.elem ≠ p := by simpa using h
      rw [ih nd.2]
      constructor
      · rintro ⟨h1, h2⟩; exact ⟨by simp [h1], h2⟩
      · rintro ⟨h1, h2⟩
        rcases List.mem_cons.1 h1 with rfl | h1
        · exact absurd h2 h'
        · exact ⟨h1, h2⟩

theorem Config.OK.area_iff {root : Elem} {E : List Pos} {c : Config} (h : c.OK root E) {p : Pos} {a : Area} :
    c.area? p = some a ↔ a ∈ c.areas ∧ a.elem = p := find_elem h.nodup

theorem Config.OK.area {root : Elem} {E : List Pos} {c : Config} (h : c.OK root E) {p : Pos} (hp : p ∈ E) :
    ∃ a, c.area? p = some a ∧ a.Sized root ∧ a.elem = p := by
  obtain ⟨a, ha, rfl⟩ := List.mem_map.1 ((h.mem p).2 hp)
  exact ⟨a, h.area_iff.2 ⟨ha, rfl⟩, h.sized a ha, rfl⟩

theorem Config.OK.area_none {root : Elem} {E : List Pos} {c : Config} (h : c.OK root E) {p : Pos} (hp : p ∉ E) :
    c.area? p = none := by
  cases ha : c.area? p with
  | none => rfl
  | some a =>
    obtain ⟨h1, rfl⟩ := h.area_iff.1 ha
    exact absurd ((h.mem _).1 (List.mem_map.2 ⟨a, h1, rfl⟩)) hp

theorem Config.OK.valid_iff {root : Elem} {E : List Pos} {c : Config} (h : c.OK root E) :
    (∀ a ∈ c.areas, a.valid = true) ↔ ∀ p a, c.area? p = some a → a.valid = true :=
  ⟨fun hv _ a ha => hv a (h.area_iff.1 ha).1, fun hv a ha => hv a.elem a (h.area_iff.2 ⟨ha, rfl⟩)⟩

/-! ## Replacing the area of one element -/

theorem setArea_elems {p : Pos} {a' : Area} (h : a'.elem = p) (as : List Area) :
    (setArea p a' as).map Area.elem = as.map Area.elem := by
  induction as with
  | nil => rfl
  | cons a as ih =>
    unfold setArea
    split
    · rename_i h2; simp [h, h2]
    · simp [ih]

theorem mem_setArea {p : Pos} {a' b : Area} {as : List Area} (h : b ∈ setArea p a' as) : b = a' ∨ b ∈ as := by
  induction as with
  | nil => simp [setArea] at h
  | cons a as ih =>
    unfold setArea at h
    split at h
    · rcases List.mem_cons.1 h with h | h
      · exact .inl h
      · exact .inr (by simp [h])
    · rcases List.mem_cons.1 h with h | h
      · exact .inr (by simp [h])
      · rcases ih h with h | h
        · exact .inl h
        · exact .inr (by simp [h])

theorem setArea_find_ne {p q : Pos} (hq : q ≠ p) {a' : Area} (h : a'.elem = p) (as : List Area) :
    (setArea p a' as).find? (fun a => a.elem == q) = as.find? (fun a => a.elem == q) := by
  induction as with
  | nil => rfl
  | cons a as ih =>
    unfold setArea
    split
    · rename_i h2
      have h3 : (p == q) = false := by simpa using hq.symm
      simp [h, h2, h3]
    · simp only [List.find?_cons, ih]

theorem setArea_find_eq {p : Pos} {a' : Area} (h : a'.elem = p) {as : List Area} (hm : p ∈ as.map Area.elem) :
    (setArea p a' as).find? (fun a => a.elem == p) = some a' := by
  induction as with
  | nil => simp at hm
  | cons a as ih =>
    unfold setArea
    split
    · simp [h]
    · rename_i h2
      have h3 : (a.elem == p) = false := by simpa using h2
      simp only [List.map_cons, List.mem_cons] at hm
      rcases hm with hm | hm
      · exact absurd hm.symm h2
      · simp [h3, ih hm]

/-- Effect of replacing the area of an element. -/
theorem Config.OK.set {root : Elem} {E : List Pos} {c : Config} (h : c.OK root E) {p : Pos} (hp : p ∈ E)
    {a' : Area} (he : a'.elem = p) (hs : a'.Sized root) :
    Config.OK root E { c with areas := setArea p a' c.areas } ∧
    Config.area? { c with areas := setArea p a' c.areas } p = some a' ∧
    (∀ q, q ≠ p → Config.area? { c with areas := setArea p a' c.areas } q = c.area? q) := by
  refine ⟨⟨?_, ?_, ?_⟩, ?_, ?_⟩
  · show ((setArea p a' c.areas).map Area.elem).Nodup
    rw [setArea_elems he]; exact h.nodup
  · intro q
    show q ∈ (setArea p a' c.areas).map Area.elem ↔ _
    rw [setArea_elems he]; exact h.mem q
  · intro b hb
    rcases mem_setArea hb with rfl | hb
    · exact hs
    · exact h.sized b hb
  · exact setArea_find_eq he ((h.mem p).2 hp)
  · intro q hq
    exact setArea_find_ne hq he c.areas

/-! ## Adding and removing elements -/

theorem Config.addElem_spec {root e : Elem} {E : List Pos} {c : Config} (h : c.OK root E) {p : Pos} (hp : p ∉ E)
    (he : root.at? p = some e) :
    ∃ c', c.addElem root p = some c' ∧ c.Same c' ∧ c'.OK root (E ++ [p]) ∧
      (∃ a, c'.area? p = some a ∧ a.valid = false ∧ c'.areas = c.areas ++ [a]) ∧
      (∀ q, q ≠ p → c'.area? q = c.area? q) := by
  obtain ⟨a, ha, hs, rfl, hv⟩ := Area.new_spec he
  have hp' : a.elem ∉ c.areas.map Area.elem := fun hm => hp ((h.mem _).1 hm)
  have ok : Config.OK root (E ++ [a.elem]) { c with areas := c.areas ++ [a] } := by
    refine ⟨?_, ?_, ?_⟩
    · simp only [List.map_append, List.map_cons, List.map_nil]
      rw [List.nodup_append]
      refine ⟨h.nodup, by simp, ?_⟩
      intro x hx y hy
      simp only [List.mem_cons, List.not_mem_nil, or_false] at hy
      subst hy; intro hxy; subst hxy; exact hp' hx
    · intro q
      simp only [List.map_append, List.map_cons, List.map_nil, List.mem_append, h.mem]
    · intro b hb
      simp only [List.mem_append, List.mem_cons, List.not_mem_nil, or_false] at hb
      rcases hb with hb | rfl
      · exact h.sized b hb
      · exact hs
  refine ⟨{ c with areas := c.areas ++ [a] }, by simp [Config.addElem, ha], ⟨rfl, rfl, rfl⟩, ok,
    ⟨a, ok.area_iff.2 ⟨by simp, rfl⟩, hv, rfl⟩, ?_⟩
  intro q hq
  show List.find? _ (c.areas ++ [a]) = _
  have h3 : (a.elem == q) = false := by simpa using hq.symm
  rw [List.find?_append]
  simp [Config.area?, h3]

theorem eraseP_find_ne {p q : Pos} (hq : q ≠ p) (as : List Area) :
    (as.eraseP (fun a => a.elem == p)).find? (fun a => a.elem == q) = as.find? (fun a => a.elem == q) := by
  induction as with
  | nil => rfl
  | cons a as ih =>
    rw [List.eraseP_cons]
    by_cases h : a.elem = p
    · have h3 : (p == q) = false := by simpa using hq.symm
      simp [h, h3]
    · have h3 : (a.elem == p) = false := by simpa using h
      simp only [h3, cond_false, List.find?_cons, ih]

theorem eraseP_elems {p : Pos} {as : List Area} (nd : (as.map Area.elem).Nodup) :
    (as.eraseP (fun a => a.elem == p)).map Area.elem = (as.map Area.elem).filter (· ≠ p) := by
  induction as with
  | nil => rfl
  | cons a as ih =>
    simp only [List.map_cons, List.nodup_cons] at nd
    rw [List.eraseP_cons]
    by_cases h : a.elem = p
    · subst h
      simp only [beq_self_eq_true, cond_true, List.map_cons, ne_eq, not_true, decide_false, Bool.false_eq_true,
        not_false_eq_true, List.filter_cons_of_neg]
      symm
      rw [List.filter_eq_self]
      intro x hx
      simp only [decide_eq_true_eq]
      intro hxa; subst hxa; exact nd.1 hx
    · have h3 : (a.elem == p) = false := by simpa using h
      simp [h3, ih nd.2, h]

theorem Config.removeElem_spec {root : Elem} {E : List Pos} {c : Config} (h : c.OK root E) {p : Pos} (hp : p ∈ E) :
    ∃ c', c.removeElem p = some c' ∧ c.Same c' ∧ c'.OK root (E.filter (· ≠ p)) ∧
      (∀ q, q ≠ p → c'.area? q = c.area? q) ∧ c'.areas.map Area.elem = (c.areas.map Area.elem).filter (· ≠ p) ∧
      (∀ a, a ∈ c'.areas → a ∈ c.areas) := by
  obtain ⟨a, ha, _⟩ := h.area hp
  refine ⟨{ c with areas := c.areas.eraseP (fun a => a.elem == p) }, by simp [Config.removeElem, ha],
    ⟨rfl, rfl, rfl⟩, ⟨?_, ?_, ?_⟩, fun q hq => eraseP_find_ne hq c.areas, eraseP_elems h.nodup,
    fun a ha => List.mem_of_mem_eraseP ha⟩
  · show ((c.areas.eraseP _).map Area.elem).Nodup
    rw [eraseP_elems h.nodup]
    exact h.nodup.sublist List.filter_sublist
  · intro q
    show q ∈ (c.areas.eraseP _).map Area.elem ↔ _
    rw [eraseP_elems h.nodup, List.mem_filter, List.mem_filter, h.mem]
  · intro b hb; exact h.sized b (List.mem_of_mem_eraseP hb)

theorem Config.addElems_spec {root : Elem} {ps : List Pos} {E : List Pos} {c : Config} (h : c.OK root E)
    (nd : ps.Nodup) (hd : ∀ p ∈ ps, p ∉ E) (hat : ∀ p ∈ ps, ∃ e, root.at? p = some e)
    (hinv : ∀ a ∈ c.areas, a.valid = false) :
    ∃ c', Config.addElems root ps c = some c' ∧ c.Same c' ∧ c'.OK root (E ++ ps) ∧
      (∀ a ∈ c'.areas, a.valid = false) ∧ c'.areas.map Area.elem = c.areas.map Area.elem ++ ps := by
  induction ps generalizing E c with
  | nil => exact ⟨c, rfl, Config.Same.refl c, by simpa using h, hinv, by simp⟩
  | cons p ps ih =>
    obtain ⟨e, he⟩ := hat p (by simp)
    obtain ⟨c1, h1, h2, h3, ⟨a, h4, h5, h6⟩, h7⟩ := Config.addElem_spec h (hd p (by simp)) he
    rw [List.nodup_cons] at nd
    obtain ⟨c2, g1, g2, g3, g4, g5⟩ := ih h3 nd.2
      (by
        intro q hq hm
        simp only [List.mem_append, List.mem_cons, List.not_mem_nil, or_false] at hm
        rcases hm with hm | rfl
        · exact hd q (by simp [hq]) hm
        · exact nd.1 hq)
      (fun q hq => hat q (by simp [hq]))
      (by
        intro b hb
        rw [h6] at hb
        simp only [List.mem_append, List.mem_cons, List.not_mem_nil, or_false] at hb
        rcases hb with hb | rfl
        · exact hinv b hb
        · exact h5)
    refine ⟨c2, by simp only [Config.addElems, h1, g1], h2.trans g2, by simpa using g3, g4, ?_⟩
    have : a.elem = p := (h3.area_iff.1 h4).2
    rw [g5, h6]; simp [this]

/-! ## Saving, validating -/

theorem mapAreas_spec {root : Elem} {E : List Pos} {c : Config} (h : c.OK root E) {f : Area → Option Area}
    (hf : ∀ a ∈ c.areas, ∃ a', f a = some a' ∧ a'.Sized root ∧ a'.elem = a.elem) :
    ∃ as, mapAll f c.areas = some as ∧ Config.OK root E { c with areas := as } ∧
      as.map Area.elem = c.areas.map Area.elem ∧
      (∀ p a, c.area? p = some a → ∃ a', f a = some a' ∧ Config.area? { c with areas := as } p = some a') ∧
      (∀ a' ∈ as, ∃ a ∈ c.areas, f a = some a') := by
  have hm := mapAll_total (l := c.areas) (f := f) (fun a ha => by obtain ⟨a', h1, _⟩ := hf a ha; exact ⟨a', h1⟩)
  have hg : ∀ a ∈ c.areas, f a = some ((f a).getD a) ∧ ((f a).getD a).Sized root ∧ ((f a).getD a).elem = a.elem := by
    intro a ha
    obtain ⟨a', h1, h2, h3⟩ := hf a ha
    simp [h1, h2, h3]
  have he : (c.areas.map fun a => (f a).getD a).map Area.elem = c.areas.map Area.elem := by
    rw [List.map_map]
    exact List.map_congr_left (fun a ha => (hg a ha).2.2)
  have ok : Config.OK root E { c with areas := c.areas.map fun a => (f a).getD a } := by
    refine ⟨by rw [he]; exact h.nodup, by rw [he]; exact h.mem, ?_⟩
    intro b hb
    obtain ⟨a, ha, rfl⟩ := List.mem_map.1 hb
    exact (hg a ha).2.1
  refine ⟨_, hm, ok, he, ?_, ?_⟩
  · intro p a ha
    obtain ⟨h1, rfl⟩ := h.area_iff.1 ha
    refine ⟨_, (hg a h1).1, ok.area_iff.2 ⟨List.mem_map.2 ⟨a, h1, rfl⟩, (hg a h1).2.2⟩⟩
  · intro a' ha'
    obtain ⟨a, ha, rfl⟩ := List.mem_map.1 ha'
    exact ⟨a, ha, (hg a ha).1⟩

theorem Config.save_spec {root : Elem} (wf : root.WF) {E : List Pos} {c : Config} (h : c.OK root E) {main : Board}
    (hm : main.length = root.footprint) :
    ∃ c', c.save root main = some c' ∧ c.Same c' ∧ c'.OK root E ∧
      c'.areas.map Area.elem = c.areas.map Area.elem ∧
      (∀ p a, c.area? p = some a → ∃ a', c'.area? p = some a' ∧ a'.valid = a.valid ∧
        ∀ i, root.Owns p i → a'.value root i = main.bit i) ∧
      ((∀ a ∈ c.areas, a.valid = true) → ∀ a ∈ c'.areas, a.valid = true) := by
  have hf : ∀ a ∈ c.areas, ∃ a', a.save root main = some a' ∧ a'.Sized root ∧ a'.elem = a.elem ∧ a'.valid = a.valid ∧
      (∀ i, root.Owns a.elem i → a'.value root i = main.bit i) := fun a ha => Area.save_spec wf (h.sized a ha) hm
  obtain ⟨as, h1, h2, h3, h4, h5⟩ := mapAreas_spec h (f := Area.save root main)
    (fun a ha => by obtain ⟨a', x1, x2, x3, _⟩ := hf a ha; exact ⟨a', x1, x2, x3⟩)
  refine ⟨{ c with areas := as }, by simp [Config.save, h1], ⟨rfl, rfl, rfl⟩, h2, h3, ?_, ?_⟩
  · intro p a ha
    obtain ⟨a', g1, g2⟩ := h4 p a ha
    obtain ⟨hm', he⟩ := h.area_iff.1 ha
    obtain ⟨a'', x1, x2, x3, x4, x5⟩ := hf a hm'
    rw [g1] at x1
    simp only [Option.some.injEq] at x1
    subst x1
    exact ⟨a', g2, x4, fun i hi => x5 i (he ▸ hi)⟩
  · intro hv a' ha'
    obtain ⟨a, ha, g1⟩ := h5 a' ha'
    obtain ⟨a'', x1, x2, x3, x4, x5⟩ := hf a ha
    rw [g1] at x1
    simp only [Option.some.injEq] at x1
    subst x1
    rw [x4]; exact hv a ha

theorem Config.validate_spec {root : Elem} (wf : root.WF) {E : List Pos} {c : Config} (h : c.OK root E) {main : Board}
    (hm : main.length = root.footprint) (hinv : ∀ a ∈ c.areas, a.valid = false) :
    ∃ c', c.validate root main = some c' ∧ c.Same c' ∧ c'.OK root E ∧
      c'.areas.map Area.elem = c.areas.map Area.elem ∧ (∀ a ∈ c'.areas, a.valid = true) ∧
      (∀ p ∈ E, ∃ a', c'.area? p = some a' ∧ ∀ i, root.Owns p i → a'.value root i = main.bit i) := by
  have hf : ∀ a ∈ c.areas, ∃ a', a.validate root main = some a' ∧ a'.Sized root ∧ a'.elem = a.elem ∧
      a'.valid = true ∧ ∀ i, root.Owns a.elem i → a'.value root i = main.bit i := by
    intro a ha
    obtain ⟨a', h1, h2, h3, h4, _, h5⟩ := Area.validate_spec wf (h.sized a ha) hm
    exact ⟨a', h1, h2, h3, h4, h5 (hinv a ha)⟩
  obtain ⟨as, h1, h2, h3, h4, h5⟩ := mapAreas_spec h (f := Area.validate root main)
    (fun a ha => by obtain ⟨a', x1, x2, x3, _⟩ := hf a ha; exact ⟨a', x1, x2, x3⟩)
  refine ⟨{ c with areas := as }, by simp [Config.validate, h1], ⟨rfl, rfl, rfl⟩, h2, h3, ?_, ?_⟩
  · intro a' ha'
    obtain ⟨a, ha, g1⟩ := h5 a' ha'
    obtain ⟨a'', x1, x2, x3, x4, x5⟩ := hf a ha
    rw [g1] at x1
    simp only [Option.some.injEq] at x1
    subst x1
    exact x4
  · intro p hp
    obtain ⟨a, ha, _, he⟩ := h.area hp
    obtain ⟨a', g1, g2⟩ := h4 p a ha
    obtain ⟨a'', x1, x2, x3, x4, x5⟩ := hf a (h.area_iff.1 ha).1
    rw [g1] at x1
    simp only [Option.some.injEq] at x1
    subst x1
    exact ⟨a', g2, fun i hi => x5 i (he ▸ hi)⟩

theorem Config.validateElem_spec {root : Elem} (wf : root.WF) {E : List Pos} {c : Config} (h : c.OK root E)
    {main : Board} (hm : main.length = root.footprint) {p : Pos} (hp : p ∈ E) :
    ∃ c', c.validateElem root main p = some c' ∧ c.Same c' ∧ c'.OK root E ∧
      (∃ a', c'.area? p = some a' ∧ a'.valid = true ∧
        ∀ a, c.area? p = some a → a.valid = false → ∀ i, root.Owns p i → a'.value root i = main.bit i) ∧
      (∀ q, q ≠ p → c'.area? q = c.area? q) := by
  obtain ⟨a, ha, hs, rfl⟩ := h.area hp
  obtain ⟨a', h1, h2, h3, h4, _, h5⟩ := Area.validate_spec wf hs hm
  obtain ⟨g1, g2, g3⟩ := h.set hp h3 h2
  refine ⟨{ c with areas := setArea a.elem a' c.areas }, by simp only [Config.validateElem, ha, h1, Option.map_some], ⟨rfl, rfl, rfl⟩, g1,
    ⟨a', g2, h4, ?_⟩, g3⟩
  intro b hb hv i hi
  rw [ha] at hb
  simp only [Option.some.injEq] at hb
  subst hb
  exact h5 hv i hi

/-- The loop that copies a valid configuration into a fresh one. -/
theorem Config.validateLoop_spec {root : Elem} {E : List Pos} {bs : List Area} {c : Config} (h : c.OK root E)
    (hb : ∀ b ∈ bs, b.Sized root ∧ b.elem ∈ E ∧ b.valid = true) (nd : (bs.map Area.elem).Nodup)
    (hinv : ∀ b ∈ bs, ∀ a, c.area? b.elem = some a → a.valid = false) :
    ∃ c', c.validateLoop bs = some c' ∧ c.Same c' ∧ c'.OK root E ∧
      c'.areas.map Area.elem = c.areas.map Area.elem ∧
      (∀ b ∈ bs, c'.area? b.elem = some b) ∧ (∀ q, q ∉ bs.map Area.elem → c'.area? q = c.area? q) := by
  induction bs generalizing c with
  | nil => exact ⟨c, rfl, Config.Same.refl c, h, rfl, by simp, by simp⟩
  | cons b bs ih =>
    obtain ⟨b1, b2, b3⟩ := hb b (by simp)
    obtain ⟨a, ha, hs, he⟩ := h.area b2
    have hva := Area.validateAgainst_spec hs b1 he (hinv b (by simp) a ha) b3
    obtain ⟨g1, g2, g3⟩ := h.set b2 rfl b1
    simp only [List.map_cons, List.nodup_cons] at nd
    obtain ⟨c', k1, k2, k3, k4, k5, k6⟩ := ih g1 (fun x hx => hb x (by simp [hx])) nd.2
      (by
        intro x hx a' ha'
        have hne : x.elem ≠ b.elem := by
          intro heq; exact nd.1 (heq ▸ List.mem_map.2 ⟨x, hx, rfl⟩)
        rw [g3 _ hne] at ha'
        exact hinv x (by simp [hx]) a' ha')
    refine ⟨c', by simp only [Config.validateLoop, ha, hva, k1], Config.Same.trans ⟨rfl, rfl, rfl⟩ k2, k3,
      k4.trans (setArea_elems rfl c.areas), ?_, ?_⟩
    · intro x hx
      rcases List.mem_cons.1 hx with rfl | hx
      · rw [k6 _ nd.1]; exact g2
      · exact k5 x hx
    · intro q hq
      simp only [List.map_cons, List.mem_cons, not_or] at hq
      rw [k6 q hq.2, g3 q hq.1]

theorem Config.validateAgainst_spec {root : Elem} {E : List Pos} {c o : Config} (h : c.OK root E) (ho : o.OK root E)
    (hl : c.areas.length = o.areas.length) (hinv : ∀ a ∈ c.areas, a.valid = false)
    (hval : ∀ a ∈ o.areas, a.valid = true) :
    ∃ c', Config.validateAgainst o c = some c' ∧ c.Same c' ∧ c'.OK root E ∧
      c'.areas.map Area.elem = c.areas.map Area.elem ∧
      (∀ a ∈ c'.areas, a.valid = true) ∧ (∀ p, c'.area? p = o.area? p) := by
  obtain ⟨c', k1, k2, k3, k4, k5, k6⟩ := Config.validateLoop_spec h (bs := o.areas)
    (fun b hb => ⟨ho.sized b hb, (ho.mem _).1 (List.mem_map.2 ⟨b, hb, rfl⟩), hval b hb⟩) ho.nodup
    (fun b hb a ha => hinv a (h.area_iff.1 ha).1)
  have hall : ∀ p, c'.area? p = o.area? p := by
    intro p
    by_cases hp : p ∈ E
    · obtain ⟨b, hb, _, rfl⟩ := ho.area hp
      rw [hb]; exact k5 b (ho.area_iff.1 hb).1
    · rw [k3.area_none hp, ho.area_none hp]
  refine ⟨c', by simp only [Config.validateAgainst, hl, ne_eq, not_true, if_false, k1], k2, k3, k4, ?_, hall⟩
  rw [k3.valid_iff]
  intro p a ha
  rw [hall] at ha
  exact hval a (ho.area_iff.1 ha).1

/-! ## Merging and splitting -/

theorem Config.merge_spec {root : Elem} (wf : root.WF) {E : List Pos} {c : Config} (h : c.OK root E) {p q : Pos}
    (hp : p ∈ E) (hq : q ∈ E) (hd : Pos.isDescendantOf q p = true) :
    ∃ c', c.merge root p q = some c' ∧ c.Same c' ∧ c'.OK root E ∧
      (∀ r, r ≠ p → c'.area? r = c.area? r) ∧
      ∃ a b a', c.area? p = some a ∧ c.area? q = some b ∧ c'.area? p = some a' ∧ a'.valid = a.valid ∧
        (∀ i, root.Owns q i → a'.value root i = b.value root i) ∧
        (∀ i, root.Owns p i → ¬ root.Owns q i → a'.value root i = a.value root i) := by
  obtain ⟨a, ha, hsa, rfl⟩ := h.area hp
  obtain ⟨b, hb, hsb, rfl⟩ := h.area hq
  obtain ⟨a', h1, h2, h3, h4, h5, h6⟩ := Area.copyToOuter_spec wf hsb hsa hd
  obtain ⟨g1, g2, g3⟩ := h.set hp h3 h2
  exact ⟨{ c with areas := setArea a.elem a' c.areas }, by simp only [Config.merge, ha, hb, h1, Option.map_some], ⟨rfl, rfl, rfl⟩, g1, g3,
    a, b, a', ha, hb, g2, h4, h5, h6⟩

/-- Merging several elements, one after the other. -/
theorem Config.splitLoop_spec {root : Elem} (wf : root.WF) {E : List Pos} {ps : List Pos} {c : Config} {f : Area}
    (h : c.OK root E) (hf : f.Sized root) (nd : ps.Nodup) (hps : ∀ p ∈ ps, p ∈ E)
    (hd : ∀ p ∈ ps, Pos.isDescendantOf p f.elem = true) :
    ∃ c', Config.splitLoop root f ps c = some c' ∧ c.Same c' ∧ c'.OK root E ∧
      (∀ q, q ∉ ps → c'.area? q = c.area? q) ∧
      (∀ p ∈ ps, ∃ a, c'.area? p = some a ∧ a.valid = true ∧ ∀ i, root.Owns p i → a.value root i = f.value root i) := by
  induction ps generalizing c with
  | nil => exact ⟨c, rfl, Config.Same.refl c, h, by simp, by simp⟩
  | cons p ps ih =>
    rw [List.nodup_cons] at nd
    obtain ⟨a, ha, hsa, rfl⟩ := h.area (hps p (by simp))
    obtain ⟨a', h1, h2, h3, h4, h5⟩ := Area.copyFromOuter_spec wf hsa hf (hd _ (by simp))
    obtain ⟨g1, g2, g3⟩ := h.set (hps _ (by simp)) h3 h2
    obtain ⟨c', k1, k2, k3, k4, k5⟩ := ih g1 nd.2 (fun q hq => hps q (by simp [hq])) (fun q hq => hd q (by simp [hq]))
    refine ⟨c', by simp only [Config.splitLoop, ha, h1, k1], Config.Same.trans ⟨rfl, rfl, rfl⟩ k2, k3, ?_, ?_⟩
    · intro q hq
      simp only [List.mem_cons, not_or] at hq
      rw [k4 q hq.2, g3 q hq.1]
    · intro q hq
      rcases List.mem_cons.1 hq with rfl | hq
      · rw [k4 _ nd.1, g2]; exact ⟨a', rfl, h4, h5⟩
      · exact k5 q hq

end PF
