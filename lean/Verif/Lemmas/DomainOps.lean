import Verif.Lemmas.Restore

/-! # Operations on one domain -/

namespace PF

/-- The consistency of a domain that also holds in the middle of the operations. -/
structure Domain.Mid (root : Elem) (d : Domain) : Prop where
  at_ : ∀ p ∈ d.elems, ∃ e, root.at? p = some e
  nodup : d.elems.Nodup
  ok : ∀ c ∈ d.configs, c.OK root d.elems
  ids : (d.configs.map Config.id).Nodup
  last : ∀ i, d.last = some i → i ∈ d.configs.map Config.id
  keys : ∀ p, d.syncOf p = if p ∈ d.elems then some (root.syncerSet p) else none
  covers : ∀ p ∈ d.elems, ∀ x ∈ root.syncerSet p, x ∈ d.syncSet
  sorted : d.syncSet.Pairwise (· < ·)

/-- The consistency of a domain between two operations. -/
structure Domain.Good (root : Elem) (d : Domain) : Prop extends Domain.Mid root d where
  antichain : ∀ p ∈ d.elems, ∀ q ∈ d.elems, p <+: q → p = q
  valid : ∀ c ∈ d.configs, ∀ a ∈ c.areas, a.valid = true

theorem filter_true {α : Type} (l : List α) : l.filter (fun _ => true) = l := by
  rw [List.filter_eq_self]; simp

theorem Domain.mapConfigs_spec {d : Domain} {f : Config → Option Config}
    (h : ∀ c ∈ d.configs, ∃ c', f c = some c') :
    ∃ g : Config → Config, d.mapConfigs f = some { d with configs := d.configs.map g } ∧
      ∀ c ∈ d.configs, f c = some (g c) := by
  refine ⟨fun c => (f c).getD c, by simp [Domain.mapConfigs, mapAll_total h], ?_⟩
  intro c hc
  obtain ⟨c', hc'⟩ := h c hc
  simp [hc']

theorem map_ids {cs : List Config} {g : Config → Config} (h : ∀ c ∈ cs, Config.Same c (g c)) :
    (cs.map g).map Config.id = cs.map Config.id := by
  rw [List.map_map]
  exact List.map_congr_left (fun c hc => (h c hc).1)

/-- Everything but the configurations. -/
structure Domain.SameHead (d d' : Domain) : Prop where
  id : d'.id = d.id
  name : d'.name = d.name
  seqAware : d'.seqAware = d.seqAware
  last : d'.last = d.last

theorem Domain.mergeLoop_spec {root : Elem} (wf : root.WF) {E : List Pos} {p : Pos} {qs : List Pos} {d : Domain}
    (hok : ∀ c ∈ d.configs, c.OK root E) (hp : p ∈ E)
    (hq : ∀ q ∈ qs, q ∈ E ∧ Pos.isDescendantOf q p = true) (nd : qs.Nodup) :
    ∃ g : Config → Config, d.mergeLoop root p qs = some { d with configs := d.configs.map g } ∧
      ∀ c ∈ d.configs, Config.Same c (g c) ∧ (g c).OK root E ∧ (∀ r, r ≠ p → (g c).area? r = c.area? r) ∧
        ∃ a a', c.area? p = some a ∧ (g c).area? p = some a' ∧ a'.valid = a.valid ∧
          (∀ q ∈ qs, ∀ i, root.Owns q i → (∀ q' ∈ qs, root.Owns q' i → q' = q) →
            ∃ b, c.area? q = some b ∧ a'.value root i = b.value root i) ∧
          (∀ i, root.Owns p i → (∀ q ∈ qs, ¬ root.Owns q i) → a'.value root i = a.value root i) := by
  induction qs generalizing d with
  | nil =>
    refine ⟨fun c => c, by simp [Domain.mergeLoop], ?_⟩
    intro c hc
    obtain ⟨a, ha, _⟩ := (hok c hc).area hp
    exact ⟨Config.Same.refl c, hok c hc, fun _ _ => rfl, a, a, ha, ha, rfl, by simp, fun _ _ _ => rfl⟩
  | cons q qs ih =>
    rw [List.nodup_cons] at nd
    have hm : ∀ c ∈ d.configs, ∃ c', c.merge root p q = some c' ∧ c.Same c' ∧ c'.OK root E ∧
      (∀ r, r ≠ p → c'.area? r = c.area? r) ∧
      ∃ a b a', c.area? p = some a ∧ c.area? q = some b ∧ c'.area? p = some a' ∧ a'.valid = a.valid ∧
        (∀ i, root.Owns q i → a'.value root i = b.value root i) ∧
        (∀ i, root.Owns p i → ¬ root.Owns q i → a'.value root i = a.value root i) :=
      fun c hc => Config.merge_spec wf (hok c hc) hp (hq q (by simp)).1 (hq q (by simp)).2
    obtain ⟨g1, h1, h2⟩ := Domain.mapConfigs_spec (d := d) (f := Config.merge root p q)
      (fun c hc => by obtain ⟨c', h, _⟩ := hm c hc; exact ⟨c', h⟩)
    obtain ⟨g2, h3, h4⟩ := ih (d := { d with configs := d.configs.map g1 })
      (by
        intro c hc
        obtain ⟨c0, hc0, rfl⟩ := List.mem_map.1 hc
        obtain ⟨c', h, _, h', _⟩ := hm c0 hc0
        rw [h2 c0 hc0] at h
        simp only [Option.some.injEq] at h
        rw [h]; exact h')
      (fun r hr => hq r (by simp [hr])) nd.2
    refine ⟨g2 ∘ g1, ?_, ?_⟩
    · simp only [Domain.mergeLoop, h1, h3, List.map_map]
    · intro c hc
      obtain ⟨c', k0, k1, k2, k3, a, b, a', k4, k5, k6, k7, k8, k9⟩ := hm c hc
      rw [h2 c hc] at k0
      simp only [Option.some.injEq] at k0
      subst k0
      obtain ⟨j1, j2, j3, b1, b2, j4, j5, j6, j7, j8⟩ := h4 (g1 c) (List.mem_map.2 ⟨c, hc, rfl⟩)
      rw [k6] at j4
      simp only [Option.some.injEq] at j4
      subst j4
      have hqp : q ≠ p := ((Pos.isDescendantOf_iff _ _).1 (hq q (by simp)).2).2
      refine ⟨k1.trans j1, j2, fun r hr => (j3 r hr).trans (k3 r hr), a, b2, k4, j5, j6.trans k7, ?_, ?_⟩
      · intro r hr i hi hu
        rcases List.mem_cons.1 hr with rfl | hr
        · refine ⟨b, k5, ?_⟩
          rw [j8 i ?_ ?_, k8 i hi]
          · obtain ⟨e, o, he, ho, x1, x2⟩ := hi
            have hpre := ((Pos.isDescendantOf_iff _ _).1 (hq r (by simp)).2).1
            obtain ⟨f, hf⟩ : ∃ f, root.at? p = some f := by
              obtain ⟨r', hr'⟩ := hpre
              rw [← hr', Elem.at?_append] at he
              cases hf : root.at? p with
              | none => simp [hf] at he
              | some f => exact ⟨f, rfl⟩
            obtain ⟨u, hu'⟩ := Elem.offset_of_at (off := 0) hf
            refine ⟨f, u, hf, hu', ?_⟩
            obtain ⟨r', rfl⟩ := hpre
            rw [Elem.at?_append, hf, Option.bind_some] at he
            rw [Elem.offset_append, hf, hu'] at ho
            simp only [Option.bind_some] at ho
            rcases wf.at hf with hw | ⟨_, _, _, _, _, _, _, _, _, _, _, rfl, _⟩
            · have := hw.extent_nested he ho; omega
            · cases r' with
              | nil => simp at hqp
              | cons => simp [Elem.at?] at he
          · intro q' hq' ho
            exact nd.1 (hu q' (by simp [hq']) ho ▸ hq')
        · obtain ⟨b', x1, x2⟩ := j7 r hr i hi (fun q' hq' => hu q' (by simp [hq']))
          have : r ≠ p := ((Pos.isDescendantOf_iff _ _).1 (hq r (by simp [hr])).2).2
          exact ⟨b', by rw [← k3 r this]; exact x1, x2⟩
      · intro i hi hn
        rw [j8 i hi (fun q' hq' => hn q' (by simp [hq'])), k9 i hi (hn q (by simp))]

theorem lookup_filter_ne {l : List (Pos × SyncerSet)} {p q : Pos} (h : q ≠ p) :
    (l.filter (fun x => x.1 ≠ p)).lookup q = l.lookup q := by
  induction l with
  | nil => rfl
  | cons x l ih =>
    obtain ⟨r, ss⟩ := x
    by_cases hr : r = p
    · subst hr
      have : (q == r) = false := by simpa using h
      simp only [ne_eq, decide_not] at ih
      simp [List.lookup_cons, this, ih]
    · simp only [ne_eq, decide_not] at ih
      simp [List.lookup_cons, hr, ih]

theorem lookup_filter_eq {l : List (Pos × SyncerSet)} {p : Pos} :
    (l.filter (fun x => x.1 ≠ p)).lookup p = none := by
  induction l with
  | nil => rfl
  | cons x l ih =>
    obtain ⟨r, ss⟩ := x
    simp only [ne_eq, decide_not] at ih
    by_cases hr : r = p
    · simp [hr, ih]
    · have : (p == r) = false := by simpa using fun h => hr h.symm
      simp [List.lookup_cons, hr, ih, this]

theorem lookup_append {l k : List (Pos × SyncerSet)} {p : Pos} :
    (l ++ k).lookup p = (l.lookup p).or (k.lookup p) := by
  induction l with
  | nil => simp
  | cons x l ih =>
    obtain ⟨r, ss⟩ := x
    simp only [List.cons_append, List.lookup_cons]
    split <;> simp [ih]

theorem mem_foldl_union {l : List (Pos × SyncerSet)} {acc : SyncerSet} {x : Nat} :
    x ∈ l.foldl (fun acc y => acc.union y.2) acc ↔ x ∈ acc ∨ ∃ y ∈ l, x ∈ y.2 := by
  induction l generalizing acc with
  | nil => simp
  | cons y l ih =>
    rw [List.foldl_cons, ih, mem_union]
    simp only [List.mem_cons, exists_eq_or_imp, or_assoc]

theorem foldl_union_sorted {l : List (Pos × SyncerSet)} {acc : SyncerSet} (h : acc.Pairwise (· < ·)) :
    (l.foldl (fun acc y => acc.union y.2) acc).Pairwise (· < ·) := by
  induction l generalizing acc with
  | nil => exact h
  | cons y l ih => exact ih (union_sorted h)

theorem lookup_mem {l : List (Pos × SyncerSet)} {p : Pos} {ss : SyncerSet} (h : l.lookup p = some ss) :
    (p, ss) ∈ l := by
  induction l with
  | nil => simp at h
  | cons x l ih =>
    obtain ⟨r, t⟩ := x
    rw [List.lookup_cons] at h
    split at h
    · rename_i hr
      simp only [beq_iff_eq] at hr
      simp only [Option.some.injEq] at h
      subst hr h; simp
    · simp [ih h]

theorem Domain.doRemove_spec {root : Elem} {d : Domain} (h : d.Mid root) {att : Attached} {p : Pos} (hp : p ∈ d.elems)
    (rc : Bool) :
    ∃ d', d.doRemove att p rc = some (d', att.filter (· ≠ (p, d.id))) ∧ d'.Mid root ∧
      d'.elems = d.elems.filter (· ≠ p) ∧ d.SameHead d' ∧
      ∃ g : Config → Config, d'.configs = d.configs.map g ∧ ∀ c ∈ d.configs, Config.Same c (g c) ∧
        (∀ q, q ≠ p → (g c).area? q = c.area? q) ∧
        (g c).areas.map Area.elem = (c.areas.map Area.elem).filter (· ≠ p) ∧
        (∀ a, a ∈ (g c).areas → a ∈ c.areas) := by
  have hr : ∀ c ∈ d.configs, ∃ c', c.removeElem p = some c' ∧ c.Same c' ∧ c'.OK root (d.elems.filter (· ≠ p)) ∧
      (∀ q, q ≠ p → c'.area? q = c.area? q) ∧ c'.areas.map Area.elem = (c.areas.map Area.elem).filter (· ≠ p) ∧
      (∀ a, a ∈ c'.areas → a ∈ c.areas) := fun c hc => Config.removeElem_spec (h.ok c hc) hp
  have hsome := mapAll_total (f := Config.removeElem p) (l := d.configs)
    (fun c hc => by obtain ⟨c', h, _⟩ := hr c hc; exact ⟨c', h⟩)
  have hg : ∀ c ∈ d.configs, Config.Same c ((c.removeElem p).getD c) ∧
      ((c.removeElem p).getD c).OK root (d.elems.filter (· ≠ p)) ∧
      (∀ q, q ≠ p → ((c.removeElem p).getD c).area? q = c.area? q) ∧
      ((c.removeElem p).getD c).areas.map Area.elem = (c.areas.map Area.elem).filter (· ≠ p) ∧
      (∀ a, a ∈ ((c.removeElem p).getD c).areas → a ∈ c.areas) := by
    intro c hc
    obtain ⟨c', h1, h2⟩ := hr c hc
    simpa [h1] using h2
  have hk : d.syncOf p = some (root.syncerSet p) := by rw [h.keys, if_pos hp]
  let d' : Domain := { d with
      elems := d.elems.filter (· ≠ p), syncMap := d.syncMap.filter (fun x => x.1 ≠ p),
      configs := d.configs.map fun c => (c.removeElem p).getD c }
  have hkeys : ∀ q, (d.syncMap.filter (fun x => x.1 ≠ p)).lookup q =
      if q ∈ d.elems.filter (· ≠ p) then some (root.syncerSet q) else none := by
    intro q
    by_cases hq : q = p
    · subst hq
      rw [lookup_filter_eq, if_neg (by simp)]
    · rw [lookup_filter_ne hq]
      have := h.keys q
      rw [Domain.syncOf] at this
      rw [this]
      by_cases hm : q ∈ d.elems
      · rw [if_pos hm, if_pos (by simp [hm, hq])]
      · rw [if_neg hm, if_neg (by simp [hm])]
  have mid : d'.Mid root := by
    refine ⟨?_, ?_, ?_, ?_, ?_, hkeys, ?_, h.sorted⟩
    · intro q hq; exact h.at_ q (List.mem_filter.1 hq).1
    · exact h.nodup.sublist List.filter_sublist
    · intro c hc
      obtain ⟨c0, hc0, rfl⟩ := List.mem_map.1 hc
      exact (hg c0 hc0).2.1
    · show ((d.configs.map _).map Config.id).Nodup
      rw [map_ids (fun c hc => (hg c hc).1)]; exact h.ids
    · intro i hi
      show i ∈ (d.configs.map _).map Config.id
      rw [map_ids (fun c hc => (hg c hc).1)]; exact h.last i hi
    · intro q hq x hx
      exact h.covers q (List.mem_filter.1 hq).1 x hx
  refine ⟨if rc then d'.computeSyncSet else d', ?_, ?_, ?_, ?_, fun c => (c.removeElem p).getD c, ?_, ?_⟩
  · simp only [Domain.doRemove, hk, hsome]; rfl
  · split
    · refine ⟨mid.at_, mid.nodup, mid.ok, mid.ids, mid.last, mid.keys, ?_, foldl_union_sorted (by simp)⟩
      intro q hq x hx
      refine mem_foldl_union.2 (.inr ⟨(q, root.syncerSet q), lookup_mem ?_, hx⟩)
      exact (mid.keys q).trans (if_pos hq)
    · exact mid
  · split <;> rfl
  · split <;> exact ⟨rfl, rfl, rfl, rfl⟩
  · split <;> rfl
  · intro c hc
    obtain ⟨h1, _, h3, h4, h5⟩ := hg c hc
    exact ⟨h1, h3, h4, h5⟩

theorem Domain.removeLoop_spec {root : Elem} {qs : List Pos} {d : Domain} (h : d.Mid root) {att : Attached}
    (nd : qs.Nodup) (hq : ∀ q ∈ qs, q ∈ d.elems) :
    ∃ d', d.removeLoop qs att = some (d', att.filter (fun x => ¬ (x.2 = d.id ∧ x.1 ∈ qs))) ∧ d'.Mid root ∧
      d'.elems = d.elems.filter (· ∉ qs) ∧ d.SameHead d' ∧
      ∃ g : Config → Config, d'.configs = d.configs.map g ∧ ∀ c ∈ d.configs, Config.Same c (g c) ∧
        (∀ q, q ∉ qs → (g c).area? q = c.area? q) ∧
        (g c).areas.map Area.elem = (c.areas.map Area.elem).filter (· ∉ qs) ∧
        (∀ a, a ∈ (g c).areas → a ∈ c.areas) := by
  induction qs generalizing d att with
  | nil =>
    refine ⟨d, by simp [Domain.removeLoop, filter_true], h, by simp [filter_true], ⟨rfl, rfl, rfl, rfl⟩,
      fun c => c, by simp, ?_⟩
    intro c _
    exact ⟨Config.Same.refl c, fun _ _ => rfl, by simp [filter_true], fun _ h => h⟩
  | cons q qs ih =>
    rw [List.nodup_cons] at nd
    obtain ⟨d1, h1, h2, h3, h4, g1, h5, h6⟩ := Domain.doRemove_spec h (att := att) (hq q (by simp)) false
    obtain ⟨d2, k1, k2, k3, k4, g2, k5, k6⟩ := ih h2 (att := att.filter (· ≠ (q, d.id))) nd.2
      (by
        intro r hr
        rw [h3, List.mem_filter]
        refine ⟨hq r (by simp [hr]), ?_⟩
        simp only [decide_eq_true_eq]
        intro he; subst he; exact nd.1 hr)
    refine ⟨d2, ?_, k2, ?_, ?_, g2 ∘ g1, ?_, ?_⟩
    · simp only [Domain.removeLoop, h1, k1, h4.id]
      congr 2
      rw [List.filter_filter]
      apply List.filter_congr
      intro x _
      obtain ⟨a, b⟩ := x
      simp only [ne_eq, Prod.mk.injEq, List.mem_cons]
      by_cases hb : b = d.id <;> by_cases ha : a = q <;> simp [ha, hb]
    · rw [k3, h3, List.filter_filter]
      apply List.filter_congr
      intro x _
      by_cases ha : x = q <;> simp [ha]
    · exact ⟨k4.id.trans h4.id, k4.name.trans h4.name, k4.seqAware.trans h4.seqAware, k4.last.trans h4.last⟩
    · rw [k5, h5, List.map_map]
    · intro c hc
      obtain ⟨x1, x2, x3, x4⟩ := h6 c hc
      obtain ⟨y1, y2, y3, y4⟩ := k6 (g1 c) (by rw [h5]; exact List.mem_map.2 ⟨c, hc, rfl⟩)
      refine ⟨x1.trans y1, ?_, ?_, fun a ha => x4 a (y4 a ha)⟩
      · intro r hr
        simp only [List.mem_cons, not_or] at hr
        exact (y2 r hr.2).trans (x2 r hr.1)
      · show (g2 (g1 c)).areas.map Area.elem = _
        rw [y3, x3, List.filter_filter]
        apply List.filter_congr
        intro x _
        by_cases ha : x = q <;> simp [ha]

/-- The removal loop does not look at the element list beyond filtering it. -/
theorem removeLoop_elems : ∀ (qs : List Pos) (d : Domain) (E F : List Pos) (att : Attached) (r : Domain × Attached),
    Domain.removeLoop qs { d with elems := E } att = some r →
    Domain.removeLoop qs { d with elems := F } att = some ({ r.1 with elems := F.filter (· ∉ qs) }, r.2) := by
  intro qs
  induction qs with
  | nil =>
    intro d E F att r hr
    simp only [Domain.removeLoop, Option.some.injEq] at hr ⊢
    subst hr; simp [filter_true]
  | cons q qs ih =>
    intro d E F att r hr
    simp only [Domain.removeLoop, Domain.doRemove, Domain.syncOf, Bool.false_eq_true, if_false] at hr ⊢
    cases h1 : d.syncMap.lookup q with
    | none => simp [h1] at hr
    | some ss =>
      cases h2 : mapAll (Config.removeElem q) d.configs with
      | none => simp [h1, h2] at hr
      | some cs =>
        simp only [h1, h2] at hr ⊢
        have := ih { d with syncMap := d.syncMap.filter (fun x => x.1 ≠ q), configs := cs } _ (F.filter (· ≠ q)) _ r hr
        have hF : (F.filter (· ≠ q)).filter (· ∉ qs) = F.filter (· ∉ q :: qs) := by
          rw [List.filter_filter]
          apply List.filter_congr
          intro x _
          by_cases hx : x = q <;> simp [hx]
        rw [hF] at this
        exact this

/-- Adding an element that is not in the domain. -/
theorem Domain.doAdd_spec {root e : Elem} (wf : root.WF) {d : Domain} (h : d.Mid root) {att : Attached} {p : Pos}
    (hp : p ∉ d.elems) (he : root.at? p = some e) {main : Option Board}
    (hm : ∀ b, main = some b → b.length = root.footprint) :
    ∃ d' att', d.doAdd root att p main = some (d', att') ∧ d'.Mid root ∧
      d'.elems = d.elems.filter (fun q => ¬ Pos.isDescendantOf q p) ++ [p] ∧ d.SameHead d' ∧
      (att' = (att ++ [(p, d.id)]).filter
        (fun x => ¬ (x.2 = d.id ∧ x.1 ∈ d.elems.filter (fun q => Pos.isDescendantOf q p)))) ∧
      ∃ g : Config → Config, d'.configs = d.configs.map g ∧ ∀ c ∈ d.configs, Config.Same c (g c) ∧
        (∀ r, r ≠ p → ¬ Pos.isDescendantOf r p → (g c).area? r = c.area? r) ∧
        ∃ a, (g c).area? p = some a ∧ a.valid = main.isSome ∧
          (∀ b, main = some b → ∀ i, root.Owns p i →
            (∀ q ∈ d.elems, Pos.isDescendantOf q p → ¬ root.Owns q i) → a.value root i = b.bit i) ∧
          (∀ q ∈ d.elems, Pos.isDescendantOf q p → ∀ i, root.Owns q i →
            (∀ q' ∈ d.elems, Pos.isDescendantOf q' p → root.Owns q' i → q' = q) →
            ∃ b, c.area? q = some b ∧ a.value root i = b.value root i) := by
  -- the new areas
  have ha : ∀ c ∈ d.configs, ∃ c', c.addElem root p = some c' ∧ c.Same c' ∧ c'.OK root (d.elems ++ [p]) ∧
      (∃ a, c'.area? p = some a ∧ a.valid = false ∧ c'.areas = c.areas ++ [a]) ∧
      (∀ q, q ≠ p → c'.area? q = c.area? q) := fun c hc => Config.addElem_spec (h.ok c hc) hp he
  have hadd := mapAll_total (f := Config.addElem root p) (l := d.configs)
    (fun c hc => by obtain ⟨c', h, _⟩ := ha c hc; exact ⟨c', h⟩)
  have ha' : ∀ c ∈ d.configs, c.Same ((c.addElem root p).getD c) ∧
      ((c.addElem root p).getD c).OK root (d.elems ++ [p]) ∧
      (∃ a, ((c.addElem root p).getD c).area? p = some a ∧ a.valid = false) ∧
      (∀ q, q ≠ p → ((c.addElem root p).getD c).area? q = c.area? q) := by
    intro c hc
    obtain ⟨c', h1, h2, h3, ⟨a, h4, h5, _⟩, h6⟩ := ha c hc
    simp only [h1, Option.getD_some]
    exact ⟨h2, h3, ⟨a, h4, h5⟩, h6⟩
  let d1 : Domain := { d with
    syncMap := d.syncMap.filter (fun x => x.1 ≠ p) ++ [(p, root.syncerSet p)],
    syncSet := d.syncSet.union (root.syncerSet p),
    configs := d.configs.map fun c => (c.addElem root p).getD c }
  -- validation
  have hval : ∃ g : Config → Config, d1.validateNew root p main = some { d1 with configs := d1.configs.map g } ∧
      ∀ c ∈ d1.configs, c.Same (g c) ∧ (g c).OK root (d.elems ++ [p]) ∧
        (∃ a, (g c).area? p = some a ∧ a.valid = main.isSome ∧
          ∀ b, main = some b → ∀ i, root.Owns p i → a.value root i = b.bit i) ∧
        (∀ q, q ≠ p → (g c).area? q = c.area? q) := by
    cases main with
    | none =>
      refine ⟨fun c => c, by simp [Domain.validateNew], ?_⟩
      intro c hc
      obtain ⟨c0, hc0, rfl⟩ := List.mem_map.1 hc
      obtain ⟨x1, x2, ⟨a, x3, x4⟩, x5⟩ := ha' c0 hc0
      exact ⟨Config.Same.refl _, x2, ⟨a, x3, x4, by simp⟩, fun _ _ => rfl⟩
    | some b =>
      have hv : ∀ c ∈ d1.configs, ∃ c', c.validateElem root b p = some c' ∧ c.Same c' ∧ c'.OK root (d.elems ++ [p]) ∧
          (∃ a, c'.area? p = some a ∧ a.valid = true ∧ ∀ i, root.Owns p i → a.value root i = b.bit i) ∧
          (∀ q, q ≠ p → c'.area? q = c.area? q) := by
        intro c hc
        obtain ⟨c0, hc0, rfl⟩ := List.mem_map.1 hc
        obtain ⟨x1, x2, ⟨a, x3, x4⟩, x5⟩ := ha' c0 hc0
        obtain ⟨c', y1, y2, y3, ⟨a', y4, y5, y6⟩, y7⟩ := Config.validateElem_spec wf x2 (hm b rfl) (p := p) (by simp)
        exact ⟨c', y1, y2, y3, ⟨a', y4, y5, y6 a x3 x4⟩, y7⟩
      obtain ⟨g, h1, h2⟩ := Domain.mapConfigs_spec (d := d1) (f := Config.validateElem root b p)
        (fun c hc => by obtain ⟨c', h, _⟩ := hv c hc; exact ⟨c', h⟩)
      refine ⟨g, h1, ?_⟩
      intro c hc
      obtain ⟨c', y1, y2, y3, ⟨a', y4, y5, y6⟩, y7⟩ := hv c hc
      rw [h2 c hc] at y1
      simp only [Option.some.injEq] at y1
      subst y1
      refine ⟨y2, y3, ⟨a', y4, by simp [y5], ?_⟩, y7⟩
      intro b' hb' i hi
      simp only [Option.some.injEq] at hb'
      subst hb'
      exact y6 i hi
  obtain ⟨g1, hg1, hg1'⟩ := hval
  let d2 : Domain := { d1 with configs := d1.configs.map g1 }
  have hg1'' : ∀ c ∈ d.configs, c.Same (g1 ((c.addElem root p).getD c)) ∧
      (g1 ((c.addElem root p).getD c)).OK root (d.elems ++ [p]) ∧
        (∃ a, (g1 ((c.addElem root p).getD c)).area? p = some a ∧ a.valid = main.isSome ∧
          ∀ b, main = some b → ∀ i, root.Owns p i → a.value root i = b.bit i) ∧
        (∀ q, q ≠ p → (g1 ((c.addElem root p).getD c)).area? q = c.area? q) := by
    intro c hc
    obtain ⟨x1, x2, _, x5⟩ := ha' c hc
    obtain ⟨y1, y2, y3, y4⟩ := hg1' _ (List.mem_map.2 ⟨c, hc, rfl⟩)
    exact ⟨x1.trans y1, y2, y3, fun q hq => (y4 q hq).trans (x5 q hq)⟩
  -- merging
  have ndM : (d.elems.filter (fun q => Pos.isDescendantOf q p)).Nodup := h.nodup.sublist List.filter_sublist
  obtain ⟨g2, hg2, hg2'⟩ := Domain.mergeLoop_spec wf (E := d.elems ++ [p]) (p := p)
    (qs := d.elems.filter (fun q => Pos.isDescendantOf q p)) (d := d2)
    (by
      intro c hc
      obtain ⟨c1, hc1, rfl⟩ := List.mem_map.1 hc
      exact (hg1' c1 hc1).2.1)
    (by simp)
    (by
      intro q hq
      obtain ⟨h1, h2⟩ := List.mem_filter.1 hq
      exact ⟨by simp [h1], h2⟩)
    ndM
  let d3 : Domain := { d2 with configs := d2.configs.map g2 }
  -- the middle state as a consistent domain with the element already counted
  have hcov : ∀ q ∈ d.elems ++ [p], ∀ x ∈ root.syncerSet q, x ∈ d.syncSet.union (root.syncerSet p) := by
    intro q hq x hx
    rw [mem_union]
    simp only [List.mem_append, List.mem_cons, List.not_mem_nil, or_false] at hq
    rcases hq with hq | rfl
    · exact .inl (h.covers q hq x hx)
    · exact .inr hx
  have hkeys : ∀ q, (d.syncMap.filter (fun x => x.1 ≠ p) ++ [(p, root.syncerSet p)]).lookup q =
      if q ∈ d.elems ++ [p] then some (root.syncerSet q) else none := by
    intro q
    rw [lookup_append]
    by_cases hq : q = p
    · subst hq
      rw [lookup_filter_eq, if_pos (by simp)]
      simp
    · rw [lookup_filter_ne hq]
      have := h.keys q
      rw [Domain.syncOf] at this
      rw [this]
      have hqp : (q == p) = false := by simpa using hq
      by_cases hm : q ∈ d.elems
      · simp [hm]
      · simp [hm, hq, List.lookup_cons, hqp]
  have hsame : ∀ c ∈ d.configs, c.Same (g2 (g1 ((c.addElem root p).getD c))) := by
    intro c hc
    obtain ⟨y1, _⟩ := hg1'' c hc
    obtain ⟨z1, _⟩ := hg2' _ (List.mem_map.2 ⟨_, List.mem_map.2 ⟨c, hc, rfl⟩, rfl⟩)
    exact y1.trans z1
  have hcfg3 : d3.configs = d.configs.map (fun c => g2 (g1 ((c.addElem root p).getD c))) := by
    simp [d3, d2, d1, List.map_map, Function.comp_def]
  have mid3 : Domain.Mid root { d3 with elems := d.elems ++ [p] } := by
    refine ⟨?_, ?_, ?_, ?_, ?_, hkeys, hcov, union_sorted h.sorted⟩
    · intro q hq
      simp only [List.mem_append, List.mem_cons, List.not_mem_nil, or_false] at hq
      rcases hq with hq | rfl
      · exact h.at_ q hq
      · exact ⟨e, he⟩
    · show (d.elems ++ [p]).Nodup
      rw [List.nodup_append]
      refine ⟨h.nodup, by simp, ?_⟩
      intro x hx y hy hxy
      simp only [List.mem_cons, List.not_mem_nil, or_false] at hy
      subst hy hxy; exact hp hx
    · intro c hc
      obtain ⟨c2, hc2, rfl⟩ := List.mem_map.1 hc
      exact (hg2' c2 hc2).2.1
    · show (d3.configs.map Config.id).Nodup
      rw [hcfg3, map_ids hsame]; exact h.ids
    · intro i hi
      show i ∈ d3.configs.map Config.id
      rw [hcfg3, map_ids hsame]; exact h.last i hi
  -- removal of the merged elements
  obtain ⟨d4, k1, k2, k3, k4, g3, k5, k6⟩ := Domain.removeLoop_spec mid3 (att := att ++ [(p, d.id)])
    (qs := d.elems.filter (fun q => Pos.isDescendantOf q p)) ndM
    (by intro q hq; simp only [List.mem_append]; exact .inl (List.mem_filter.1 hq).1)
  have hpM : p ∉ d.elems.filter (fun q => Pos.isDescendantOf q p) := fun hm => hp (List.mem_filter.1 hm).1
  -- removeLoop does not look at the element list beyond filtering it
  have k1' := removeLoop_elems _ d3 _ d.elems _ _ k1
  have hfil : (d.elems ++ [p]).filter (· ∉ d.elems.filter (fun q => Pos.isDescendantOf q p)) =
      d.elems.filter (· ∉ d.elems.filter (fun q => Pos.isDescendantOf q p)) ++ [p] := by
    rw [List.filter_append]
    congr 1
    simp [hp]
  have hfil2 : d.elems.filter (· ∉ d.elems.filter (fun q => Pos.isDescendantOf q p)) =
      d.elems.filter (fun q => ¬ Pos.isDescendantOf q p) := by
    apply List.filter_congr
    intro x hx
    simp [hx]
  refine ⟨{ d4 with elems := d.elems.filter (· ∉ d.elems.filter (fun q => Pos.isDescendantOf q p)) ++ [p] }, _,
    ?_, ?_, ?_, ?_, rfl, fun c => g3 (g2 (g1 ((c.addElem root p).getD c))), ?_, ?_⟩
  · unfold Domain.doAdd
    simp only [hadd]
    have e1 : d1.validateNew root p main = some d2 := hg1
    have e2 : d2.mergeLoop root p (d2.elems.filter (fun q => Pos.isDescendantOf q p)) = some d3 := hg2
    simp only [d1] at e1
    simp only [e1, e2]
    have e3 : d3.removeLoop (d2.elems.filter (fun q => Pos.isDescendantOf q p)) (att ++ [(p, d.id)]) = _ := k1'
    simp only [e3]
    rfl
  · rw [← hfil, ← k3]; exact k2
  · show d.elems.filter _ ++ [p] = _
    rw [hfil2]
  · exact ⟨k4.id, k4.name, k4.seqAware, k4.last⟩
  · show d4.configs = _
    rw [k5]
    show d3.configs.map g3 = _
    rw [hcfg3, List.map_map]; rfl
  · intro c hc
    obtain ⟨y1, y2, ⟨a1, y3, y3v, y3b⟩, y4⟩ := hg1'' c hc
    have hc2 : g1 ((c.addElem root p).getD c) ∈ d2.configs :=
      List.mem_map.2 ⟨_, List.mem_map.2 ⟨c, hc, rfl⟩, rfl⟩
    obtain ⟨z1, z2, z3, a, a', z4, z5, z6, z7, z8⟩ := hg2' _ hc2
    obtain ⟨w1, w2, w3, w4⟩ := k6 _ (show g2 (g1 ((c.addElem root p).getD c)) ∈ d3.configs from
      List.mem_map.2 ⟨_, hc2, rfl⟩)
    rw [y3] at z4
    simp only [Option.some.injEq] at z4
    subst z4
    refine ⟨(y1.trans z1).trans w1, ?_, a', by rw [w2 p hpM]; exact z5, z6.trans y3v, ?_, ?_⟩
    · intro r hr hnd
      rw [w2 r (fun hm => hnd (List.mem_filter.1 hm).2), z3 r hr, y4 r hr]
    · intro b hb i hi hno
      rw [z8 i hi (fun q hq => hno q (List.mem_filter.1 hq).1 (List.mem_filter.1 hq).2)]
      exact y3b b hb i hi
    · intro q hq hqd i hi hu
      obtain ⟨b, x1, x2⟩ := z7 q (List.mem_filter.2 ⟨hq, hqd⟩) i hi
        (fun q' hq' => hu q' (List.mem_filter.1 hq').1 (List.mem_filter.1 hq').2)
      have : q ≠ p := fun he => hp (he ▸ hq)
      exact ⟨b, by rw [← y4 q this]; exact x1, x2⟩

end PF
