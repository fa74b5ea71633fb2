import Verif.Lemmas.DomainGood

/-! # Operations on the configurations of a domain keep it consistent -/

namespace PF

/-! ## Order of the areas -/

theorem eraseP_congr_mem {α : Type} {p q : α → Bool} {l : List α} (h : ∀ a ∈ l, p a = q a) : l.eraseP p = l.eraseP q := by
  induction l with
  | nil => rfl
  | cons a l ih =>
    rw [List.eraseP_cons, List.eraseP_cons, h a (by simp), ih (fun b hb => h b (by simp [hb]))]

/-- The areas put in front are those of the paths given, in that order. -/
theorem sequenceLoop_spec {root : Elem} {paths : List Str} {seen : List Str} {front back : List Area}
    (nd : ((front ++ back).map Area.elem).Nodup) (hf : front.map (fun a => root.path a.elem) = seen.map some) :
    ((sequenceLoop root seen front back paths).2.Perm (front ++ back)) ∧
    ((sequenceLoop root seen front back paths).1 = .ok () →
      ∃ moved, (sequenceLoop root seen front back paths).2 =
          front ++ moved ++ back.filter (fun a => a ∉ moved) ∧
        moved.map (fun a => root.path a.elem) = paths.map some ∧ moved.Nodup ∧ ∀ a ∈ moved, a ∈ back) ∧
    (sequenceLoop root seen front back paths).1 ≠ .abort := by
  induction paths generalizing seen front back with
  | nil => exact ⟨List.Perm.refl _, fun _ => ⟨[], by simp [sequenceLoop, filter_true], rfl, List.nodup_nil, by simp⟩,
      by simp [sequenceLoop]⟩
  | cons path paths ih =>
    simp only [sequenceLoop]
    split
    · exact ⟨List.Perm.refl _, by simp, by simp⟩
    · rename_i a ha
      split
      · exact ⟨List.Perm.refl _, by simp, by simp⟩
      · rename_i hseen
        have hpath : root.path a.elem = some path := by
          have := List.find?_some ha
          simpa using this
        have hmem := List.mem_of_find?_eq_some ha
        have hnf : a ∉ front := by
          intro hm
          have : root.path a.elem ∈ front.map (fun a => root.path a.elem) := List.mem_map.2 ⟨a, hm, rfl⟩
          rw [hf, hpath] at this
          simp at this
          exact hseen this
        have hb : a ∈ back := by
          rcases List.mem_append.1 hmem with h | h
          · exact absurd h hnf
          · exact h
        have ndb : (back.map Area.elem).Nodup := by
          rw [List.map_append] at nd
          exact (List.nodup_append.1 nd).2.1
        have hinj : ∀ b ∈ back, (b.elem == a.elem) = (a == b) := by
          intro b hbm
          by_cases h : b = a
          · rw [h]; simp
          · have : b.elem ≠ a.elem := by
              intro he
              have h1 := (find_elem ndb (p := a.elem) (a := b)).2 ⟨hbm, he⟩
              have h2 := (find_elem ndb (p := a.elem) (a := a)).2 ⟨hb, rfl⟩
              rw [h1] at h2
              exact h (by simpa using h2)
            rw [beq_eq_false_iff_ne.2 this, beq_eq_false_iff_ne.2 (Ne.symm h)]
        have herase : back.eraseP (fun b => b.elem == a.elem) = back.erase a := by
          rw [List.erase_eq_eraseP]
          exact eraseP_congr_mem hinj
        have ndback : back.Nodup := by
          rw [List.nodup_iff_pairwise_ne] at ndb ⊢
          rw [List.pairwise_map] at ndb
          exact ndb.imp (fun h he => h (by rw [he]))
        have hperm : (front ++ [a] ++ back.erase a).Perm (front ++ back) := by
          rw [List.append_assoc]
          exact (List.perm_cons_erase hb).symm.append_left front
        rw [herase]
        have nd' : ((front ++ [a] ++ back.erase a).map Area.elem).Nodup :=
          ((hperm.map Area.elem).nodup_iff).2 nd
        obtain ⟨i1, i2, i3⟩ := ih (seen := seen ++ [path]) (front := front ++ [a]) (back := back.erase a) nd'
          (by simp [hf, hpath])
        refine ⟨i1.trans hperm, ?_, i3⟩
        intro hok
        obtain ⟨moved, m1, m2, m3, m4⟩ := i2 hok
        refine ⟨a :: moved, ?_, by simp [m2, hpath], ?_, ?_⟩
        · rw [m1]
          have : (back.erase a).filter (fun x => decide (x ∉ moved)) = back.filter (fun x => decide (x ∉ a :: moved)) := by
            rw [ndback.erase_eq_filter, List.filter_filter]
            apply List.filter_congr
            intro x _
            by_cases hx : x = a <;> simp [hx]
          rw [this]
          simp
        · rw [List.nodup_cons]
          refine ⟨fun hm => ?_, m3⟩
          have := m4 a hm
          rw [ndback.erase_eq_filter] at this
          simp at this
        · intro x hx
          rcases List.mem_cons.1 hx with rfl | hx
          · exact hb
          · exact List.mem_of_mem_erase (m4 x hx)

theorem Config.OK.perm {root : Elem} {E : List Pos} {c c' : Config} (h : c.OK root E) (hp : c'.areas.Perm c.areas) :
    c'.OK root E ∧ ∀ p, c'.area? p = c.area? p := by
  have ok : c'.OK root E := by
    refine ⟨((hp.map Area.elem).nodup_iff).2 h.nodup, ?_, fun a ha => h.sized a (hp.mem_iff.1 ha)⟩
    intro p
    rw [(hp.map Area.elem).mem_iff]
    exact h.mem p
  refine ⟨ok, fun p => ?_⟩
  apply Option.ext
  intro a
  rw [ok.area_iff, h.area_iff, hp.mem_iff]

/-! ## Replacing a configuration -/

theorem Domain.mem_setConfig {d : Domain} {c c' x : Config} (hc : c ∈ d.configs) (hid : c'.id = c.id) :
    x ∈ (d.setConfig c').configs ↔ x = c' ∨ (x ∈ d.configs ∧ x.id ≠ c.id) := by
  simp only [Domain.setConfig, List.mem_map]
  constructor
  · rintro ⟨y, hy, rfl⟩
    by_cases h : y.id = c'.id
    · simp [h]
    · rw [if_neg h]
      exact .inr ⟨hy, by rw [← hid]; exact h⟩
  · rintro (rfl | ⟨h1, h2⟩)
    · exact ⟨c, hc, by simp [hid]⟩
    · exact ⟨x, h1, by rw [if_neg (by rw [hid]; exact h2)]⟩

theorem Domain.setConfig_ids {d : Domain} {c' : Config} :
    (d.setConfig c').configs.map Config.id = d.configs.map Config.id := by
  simp only [Domain.setConfig, List.map_map]
  apply List.map_congr_left
  intro x _
  show (if x.id = c'.id then c' else x).id = x.id
  split
  · rename_i h; exact h.symm
  · rfl

theorem Domain.setConfig_good {root : Elem} {d : Domain} (h : d.Good root) {c c' : Config} (hc : c ∈ d.configs)
    (hid : c'.id = c.id) (hok : c'.OK root d.elems) (hv : ∀ a ∈ c'.areas, a.valid = true) :
    (d.setConfig c').Good root := by
  refine ⟨⟨h.at_, h.nodup, ?_, ?_, ?_, h.keys, h.covers, h.sorted⟩, h.antichain, ?_⟩
  · intro x hx
    rcases (Domain.mem_setConfig hc hid).1 hx with rfl | ⟨hx, _⟩
    · exact hok
    · exact h.ok x hx
  · rw [Domain.setConfig_ids]; exact h.ids
  · rw [Domain.setConfig_ids]; exact h.last
  · intro x hx
    rcases (Domain.mem_setConfig hc hid).1 hx with rfl | ⟨hx, _⟩
    · exact hv
    · exact h.valid x hx

theorem Domain.findConfig_mem {d : Domain} {name : Str} {c : Config} (h : d.findConfig name = some c) :
    c ∈ d.configs ∧ c.pathName = name := by
  refine ⟨List.mem_of_find?_eq_some h, ?_⟩
  have := List.find?_some h
  simpa using this

/-- Configurations of a consistent domain are determined by their addresses. -/
theorem Domain.config_inj {d : Domain} (h : (d.configs.map Config.id).Nodup) {c c' : Config} (hc : c ∈ d.configs)
    (hc' : c' ∈ d.configs) (hid : c.id = c'.id) : c = c' := by
  induction hl : d.configs generalizing d with
  | nil => rw [hl] at hc; simp at hc
  | cons x xs ih =>
    rw [hl, List.map_cons, List.nodup_cons] at h
    rw [hl] at hc hc'
    rcases List.mem_cons.1 hc with h1 | h1 <;> rcases List.mem_cons.1 hc' with h2 | h2
    · rw [h1, h2]
    · exact absurd (List.mem_map.2 ⟨c', h2, by rw [← hid, h1]⟩) h.1
    · exact absurd (List.mem_map.2 ⟨c, h1, by rw [hid, h2]⟩) h.1
    · exact ih (d := { d with configs := xs }) h.2 h1 h2 rfl

/-! ## Creation -/

theorem Domain.createConfig_spec {root : Elem} (wf : root.WF) {d : Domain} (h : d.Good root) {main : Board}
    (hm : main.length = root.footprint) {id : Nat} (hid : id ∉ d.configs.map Config.id) {name : Str}
    (hf : d.findConfig name = none) :
    ∃ c, d.createConfig root main id name = .ok { d with configs := d.configs ++ [c] } ∧
      Domain.Good root { d with configs := d.configs ++ [c] } ∧ c.id = id ∧ c.name = name ∧ c.rule = none ∧
      c.areas.map Area.elem = d.elems ∧
      (∀ o rest, d.configs = o :: rest → ∀ p, c.area? p = o.area? p) ∧
      (d.configs = [] → ∀ p ∈ d.elems, ∃ a, c.area? p = some a ∧ ∀ i, root.Owns p i → a.value root i = main.bit i) := by
  have ok0 : Config.OK root [] { id, name, rule := none, areas := [] } :=
    ⟨List.nodup_nil, by simp, by simp⟩
  obtain ⟨c1, h1, h2, h3, h4, h5⟩ := Config.addElems_spec ok0 (ps := d.elems) h.nodup (by simp) h.at_ (by simp)
  simp only [List.nil_append, List.map_nil] at h3 h5
  have hsync : d.elems.any (fun p => (d.syncOf p).isNone) = false := by
    rw [List.any_eq_false]
    intro p hp
    rw [h.keys p, if_pos hp]; simp
  -- the new configuration gets its settings
  have key : ∃ c, d.fillNew root main c1 = some c ∧ c1.Same c ∧ c.OK root d.elems ∧
      c.areas.map Area.elem = c1.areas.map Area.elem ∧ (∀ a ∈ c.areas, a.valid = true) ∧
      (∀ o rest, d.configs = o :: rest → ∀ p, c.area? p = o.area? p) ∧
      (d.configs = [] → ∀ p ∈ d.elems, ∃ a, c.area? p = some a ∧ ∀ i, root.Owns p i → a.value root i = main.bit i) := by
    cases hcs : d.configs with
    | nil =>
      obtain ⟨c, k1, k2, k3, k4, k5, k6⟩ := Config.validate_spec wf h3 hm h4
      refine ⟨c, by simp only [Domain.fillNew, hcs]; exact k1, k2, k3, k4, k5, by simp, fun _ => k6⟩
    | cons o rest =>
      have ho : o ∈ d.configs := by rw [hcs]; simp
      have hoo := h.ok o ho
      have hlen : c1.areas.length = o.areas.length := by
        rw [← List.length_map (f := Area.elem) (as := c1.areas), h5, ← List.length_map (f := Area.elem) (as := o.areas)]
        exact ((List.perm_ext_iff_of_nodup h.nodup hoo.nodup).2 (fun p => (hoo.mem p).symm)).length_eq
      obtain ⟨c, k1, k2, k3, k4, k5, k6⟩ := Config.validateAgainst_spec h3 hoo hlen h4 (h.valid o ho)
      refine ⟨c, by simp only [Domain.fillNew, hcs]; exact k1, k2, k3, k4, k5, ?_, by simp⟩
      · intro o' rest' he
        simp only [List.cons.injEq] at he
        obtain ⟨rfl, rfl⟩ := he
        exact k6
  obtain ⟨c, k1, k2, k3, k4, k5, k6, k7⟩ := key
  have hcid : c.id = id := k2.1.trans h2.1
  refine ⟨c, ?_, ⟨⟨h.at_, h.nodup, ?_, ?_, ?_, h.keys, h.covers, h.sorted⟩, h.antichain, ?_⟩, hcid,
    k2.2.1.trans h2.2.1, k2.2.2.trans h2.2.2, k4.trans h5, k6, k7⟩
  · simp only [Domain.createConfig, hf, hsync, h1, k1]
    rfl
  · intro x hx
    rcases List.mem_append.1 hx with hx | hx
    · exact h.ok x hx
    · simp only [List.mem_cons, List.not_mem_nil, or_false] at hx; subst hx; exact k3
  · show ((d.configs ++ [c]).map Config.id).Nodup
    rw [List.map_append, List.nodup_append]
    refine ⟨h.ids, by simp, ?_⟩
    intro a ha b hb
    simp only [List.map_cons, List.map_nil, List.mem_cons, List.not_mem_nil, or_false] at hb
    rw [hb, hcid]
    exact fun hab => hid (hab ▸ ha)
  · intro i hi
    show i ∈ (d.configs ++ [c]).map Config.id
    rw [List.map_append]
    exact List.mem_append_left _ (h.last i hi)
  · intro x hx
    rcases List.mem_append.1 hx with hx | hx
    · exact h.valid x hx
    · simp only [List.mem_cons, List.not_mem_nil, or_false] at hx; subst hx; exact k5

theorem Domain.deleteConfig_good {root : Elem} {d d' : Domain} (h : d.Good root) {name : Str}
    (hd : d.deleteConfig name = .ok d') : d'.Good root := by
  unfold Domain.deleteConfig at hd
  split at hd
  · simp at hd
  · rename_i c hc
    simp only [Out.ok.injEq] at hd
    subst hd
    refine ⟨⟨h.at_, h.nodup, ?_, ?_, ?_, h.keys, h.covers, h.sorted⟩, h.antichain, ?_⟩
    · intro x hx; exact h.ok x (List.mem_filter.1 hx).1
    · exact h.ids.sublist (List.filter_sublist.map _)
    · intro i hi
      simp only at hi
      split at hi
      · simp at hi
      · rename_i hne
        obtain ⟨x, hx, rfl⟩ := List.mem_map.1 (h.last i hi)
        refine List.mem_map.2 ⟨x, List.mem_filter.2 ⟨hx, ?_⟩, rfl⟩
        simp only [decide_eq_true_eq]
        intro he
        exact hne (by rw [hi, he])
    · intro x hx; exact h.valid x (List.mem_filter.1 hx).1

theorem Domain.renameConfig_good {root : Elem} {d d' : Domain} (h : d.Good root) {name new : Str}
    (hd : d.renameConfig name new = .ok d') :
    d'.Good root ∧ ∃ c, d.findConfig name = some c ∧ d' = d.setConfig { c with name := new } ∧
      ∀ x ∈ d.configs, x.id ≠ c.id → x.name ≠ new := by
  unfold Domain.renameConfig at hd
  split at hd
  · simp at hd
  · rename_i c hc
    split at hd
    · simp at hd
    · rename_i hany
      simp only [Out.ok.injEq] at hd
      subst hd
      have hcm := (Domain.findConfig_mem hc).1
      have hok := h.ok c hcm
      refine ⟨Domain.setConfig_good h hcm rfl ⟨hok.nodup, hok.mem, hok.sized⟩ (h.valid c hcm), c, hc, rfl, ?_⟩
      intro x hx hid hn
      apply hany
      rw [List.any_eq_true]
      exact ⟨x, hx, by simp [hid, hn]⟩

theorem Domain.saveConfig_spec {root : Elem} (wf : root.WF) {d : Domain} (h : d.Good root) {main : Board}
    (hm : main.length = root.footprint) {name : Str} {c : Config} (hf : d.findConfig name = some c) :
    ∃ c', d.saveConfig root main name = .ok (d.setConfig c') ∧ (d.setConfig c').Good root ∧ c.Same c' ∧
      c'.areas.map Area.elem = c.areas.map Area.elem ∧
      ∀ p ∈ d.elems, ∃ a', c'.area? p = some a' ∧ ∀ i, root.Owns p i → a'.value root i = main.bit i := by
  have hcm := (Domain.findConfig_mem hf).1
  have hok := h.ok c hcm
  obtain ⟨c', h1, h2, h3, h4, h5, h6⟩ := Config.save_spec wf hok hm
  refine ⟨c', by simp only [Domain.saveConfig, hf, h1], Domain.setConfig_good h hcm h2.1 h3 (h6 (h.valid c hcm)), h2, h4, ?_⟩
  intro p hp
  obtain ⟨a, ha, _⟩ := hok.area hp
  obtain ⟨a', h7, _, h8⟩ := h5 p a ha
  exact ⟨a', h7, h8⟩

/-! ## Restoration -/

/-- What a restoration of the areas of a configuration of a consistent domain does to the main
blackboard. -/
theorem Domain.restore_spec {root : Elem} (wf : root.WF) (fd : root.FieldsDisjoint) {d : Domain} (h : d.Good root)
    (hw : Hardware) (bSync : Bool) {m : Mem} (hm : m.main.length = root.footprint) {c : Config} (hc : c ∈ d.configs) :
    ∃ m' errs, restoreAreas root hw d.syncOf bSync c.areas m = some (m', errs) ∧ m'.main.length = root.footprint ∧
      (∀ i, (∀ p ∈ d.elems, ¬ root.Owns p i) → m'.main.bit i = m.main.bit i) ∧
      (∀ p ∈ d.elems, ∀ a, c.area? p = some a → ∀ i, root.Owns p i → m'.main.bit i = a.value root i) ∧
      (bSync = false → m'.log = m.log ∧ errs = []) := by
  have hok := h.ok c hc
  have hel : ∀ a ∈ c.areas, a.elem ∈ d.elems := fun a ha => (hok.mem _).1 (List.mem_map.2 ⟨a, ha, rfl⟩)
  obtain ⟨m', errs, h1, h2, h3, h4, h5⟩ := restoreAreas_spec wf hw (syncOf := d.syncOf) (bSync := bSync) hok.sized
    (h.valid c hc) (fun _ a ha => ⟨_, by rw [h.keys, if_pos (hel a ha)]⟩) hm
  refine ⟨m', errs, h1, h2, fun i hi => h3 i (fun a ha => hi _ (hel a ha)), ?_, h5⟩
  intro p hp a ha i hi
  obtain ⟨ham, rfl⟩ := hok.area_iff.1 ha
  exact h4 a ham i hi (fun b hb hbi => h.owner wf fd (hel b hb) (hel a ham) hbi hi) hok.nodup

/-- A restoration only needs consistency for its success and the size of the main blackboard. -/
theorem Domain.restore_total {root : Elem} (wf : root.WF) {d : Domain} (h : d.Good root)
    (hw : Hardware) (bSync : Bool) {m : Mem} (hm : m.main.length = root.footprint) {c : Config} (hc : c ∈ d.configs) :
    ∃ m' errs, restoreAreas root hw d.syncOf bSync c.areas m = some (m', errs) ∧ m'.main.length = root.footprint := by
  have hok := h.ok c hc
  have hel : ∀ a ∈ c.areas, a.elem ∈ d.elems := fun a ha => (hok.mem _).1 (List.mem_map.2 ⟨a, ha, rfl⟩)
  obtain ⟨m', errs, h1, h2, _⟩ := restoreAreas_spec wf hw (syncOf := d.syncOf) (bSync := bSync) hok.sized
    (h.valid c hc) (fun _ a ha => ⟨_, by rw [h.keys, if_pos (hel a ha)]⟩) hm
  exact ⟨m', errs, h1, h2⟩

theorem Domain.Good.withLast {root : Elem} {d : Domain} (h : d.Good root) {l : Option Nat}
    (hl : ∀ i, l = some i → i ∈ d.configs.map Config.id) : Domain.Good root { d with last := l } :=
  ⟨⟨h.at_, h.nodup, h.ok, h.ids, hl, h.keys, h.covers, h.sorted⟩, h.antichain, h.valid⟩

theorem findApplicable_mem {cs : List Criterion} {l : List Config} {c : Config}
    (h : findApplicable cs l = some (some c)) : c ∈ l := by
  induction l with
  | nil => simp [findApplicable] at h
  | cons x xs ih =>
    unfold findApplicable at h
    split at h
    · simp at h
    · simp only [Option.some.injEq] at h; subst h; simp
    · exact List.mem_cons_of_mem _ (ih h)

end PF
