import Verif.Lemmas.DomainStep

/-! # The syncers a domain collects are exactly those of its elements -/

namespace PF
open Spec

/-- The domain collects no syncer foreign to its elements. -/
def Domain.Exact (root : Elem) (d : Domain) : Prop := ∀ x ∈ d.syncSet, ∃ p ∈ d.elems, Concerns root p x

theorem Spec.Concerns.up {root : Elem} {p q : Pos} (hpq : p <+: q) {x : Nat} (h : Concerns root q x) : Concerns root p x := by
  obtain ⟨r, g, hr, hg, hs⟩ := h
  refine ⟨r, g, ?_, hg, hs⟩
  rcases hr with hr | hr
  · exact (List.prefix_or_prefix_of_prefix hr hpq)
  · exact .inr (hpq.trans hr)

theorem Elem.child_mem {root : Elem} {p : Pos} {i : Nat} {e : Elem} (h : root.at? (p ++ [i]) = some e) :
    p ++ [i] ∈ root.childPositions p := by
  rw [Elem.at?_append] at h
  unfold Elem.childPositions
  cases hp : root.at? p with
  | none => simp [hp] at h
  | some f =>
    simp only [hp, Option.bind_some, Elem.at?_single] at h
    simp only [List.mem_map, List.mem_range]
    refine ⟨i, ?_, rfl⟩
    exact (List.getElem?_eq_some_iff.1 h).1

theorem Spec.Concerns.down {root : Elem} {p : Pos} (hne : root.childPositions p ≠ []) {x : Nat} (h : Concerns root p x) :
    ∃ q ∈ root.childPositions p, Concerns root q x := by
  obtain ⟨r, g, hr, hg, hs⟩ := h
  have up : r <+: p → ∃ q ∈ root.childPositions p, Concerns root q x := by
    intro hr
    obtain ⟨q, hq⟩ := List.exists_mem_of_ne_nil _ hne
    obtain ⟨i, e, rfl, he⟩ := Elem.mem_childPositions hq
    exact ⟨_, hq, r, g, .inl (hr.trans (List.prefix_append _ _)), hg, hs⟩
  rcases hr with hr | ⟨t, rfl⟩
  · exact up hr
  · cases t with
    | nil => exact up (by simp)
    | cons i t =>
      have hg' := hg
      rw [show p ++ i :: t = (p ++ [i]) ++ t by simp, Elem.at?_append] at hg'
      cases hc : root.at? (p ++ [i]) with
      | none => simp [hc] at hg'
      | some c => exact ⟨p ++ [i], Elem.child_mem hc, p ++ i :: t, g, .inr ⟨t, by simp⟩, hg, hs⟩

theorem syncerSet_iff {root : Elem} (nn : root.SyncersNotNested) {p : Pos} {e : Elem} (he : root.at? p = some e) (x : Nat) :
    x ∈ root.syncerSet p ↔ Concerns root p x := by
  constructor
  · intro hx
    obtain ⟨q, g, hq, hg, hs⟩ := C52_nothing_else root x hx
    exact ⟨q, g, hq, hg, hs⟩
  · rintro ⟨q, g, hq | hq, hg, hs⟩
    · refine C52_coverage root nn (q := p) (by simp) he x ?_
      cases hgs : root.getSyncer none p with
      | none =>
        obtain ⟨_, hnone⟩ := getSyncer_complete root none p e he hgs
        have := hnone q g hq hg
        rw [hs] at this; simp at this
      | some y =>
        rcases getSyncer_spec root none _ y hgs with ⟨r', g', hr', hg', hs'⟩ | ⟨h, _⟩
        · have : q = r' := unique_on_branch nn hq hr' hg hg' (by simp [hs]) (by simp [hs'])
          subst this
          rw [hg] at hg'
          simp only [Option.some.injEq] at hg'
          subst hg'
          rw [hs] at hs'
          exact hs'.symm
        · simp at h
    · refine C52_coverage root nn hq hg x ?_
      cases hgs : root.getSyncer none q with
      | none =>
        obtain ⟨_, hnone⟩ := getSyncer_complete root none q g hg hgs
        have := hnone q g (by simp) hg
        rw [hs] at this; simp at this
      | some y =>
        rcases getSyncer_spec root none _ y hgs with ⟨r', g', hr', hg', hs'⟩ | ⟨h, _⟩
        · have : q = r' := unique_on_branch nn (by simp) hr' hg hg' (by simp [hs]) (by simp [hs'])
          subst this
          rw [hg] at hg'
          simp only [Option.some.injEq] at hg'
          subst hg'
          rw [hs] at hs'
          exact hs'.symm
        · simp at h

theorem mem_resyncSet_iff {root : Elem} (nn : root.SyncersNotNested) {asked : List Nat} {x : Nat} :
    x ∈ root.resyncSet asked ↔ ∃ i ∈ asked, i < root.children.length ∧ Concerns root [i] x := by
  rw [mem_resyncSet]
  constructor
  · rintro ⟨i, hi, hl, hx⟩
    exact ⟨i, hi, hl, (syncerSet_iff nn (e := root.children[i]) (by rw [Elem.at?_single]; simp [hl]) x).1 hx⟩
  · rintro ⟨i, hi, hl, hx⟩
    exact ⟨i, hi, hl, (syncerSet_iff nn (e := root.children[i]) (by rw [Elem.at?_single]; simp [hl]) x).2 hx⟩

/-! ## Syncers after each operation -/

theorem Domain.mapConfigs_syncSet {d d' : Domain} {f : Config → Option Config} (h : d.mapConfigs f = some d') :
    d'.syncSet = d.syncSet := by
  unfold Domain.mapConfigs at h
  obtain ⟨cs, _, rfl⟩ := Option.map_eq_some_iff.1 h
  rfl

theorem Domain.mergeLoop_syncSet {root : Elem} {p : Pos} {qs : List Pos} {d d' : Domain}
    (h : d.mergeLoop root p qs = some d') : d'.syncSet = d.syncSet := by
  induction qs generalizing d with
  | nil => simp only [Domain.mergeLoop, Option.some.injEq] at h; rw [h]
  | cons q qs ih =>
    simp only [Domain.mergeLoop] at h
    split at h
    · simp at h
    · rename_i d1 h1
      rw [ih h, Domain.mapConfigs_syncSet h1]

theorem Domain.doRemove_syncSet {d d' : Domain} {att att' : Attached} {p : Pos}
    (h : d.doRemove att p false = some (d', att')) : d'.syncSet = d.syncSet := by
  unfold Domain.doRemove at h
  split at h
  · simp at h
  · split at h
    · simp at h
    · simp only [Bool.false_eq_true, if_false, Option.some.injEq, Prod.mk.injEq] at h
      rw [← h.1]

theorem Domain.removeLoop_syncSet {qs : List Pos} {d d' : Domain} {att att' : Attached}
    (h : d.removeLoop qs att = some (d', att')) : d'.syncSet = d.syncSet := by
  induction qs generalizing d att with
  | nil => simp only [Domain.removeLoop, Option.some.injEq, Prod.mk.injEq] at h; rw [h.1]
  | cons q qs ih =>
    simp only [Domain.removeLoop] at h
    split at h
    · simp at h
    · rename_i d1 att1 h1
      rw [ih h, Domain.doRemove_syncSet h1]

theorem Domain.doAdd_syncSet {root : Elem} {d d' : Domain} {att att' : Attached} {p : Pos} {main : Option Board}
    (h : d.doAdd root att p main = some (d', att')) : d'.syncSet = d.syncSet.union (root.syncerSet p) := by
  unfold Domain.doAdd at h
  dsimp only at h
  split at h
  · simp at h
  · split at h
    · simp at h
    · rename_i d2 h2
      split at h
      · simp at h
      · rename_i d3 h3
        split at h
        · simp at h
        · rename_i d4 att4 h4
          simp only [Option.some.injEq, Prod.mk.injEq] at h
          rw [← h.1]
          show d4.syncSet = _
          rw [Domain.removeLoop_syncSet h4, Domain.mergeLoop_syncSet h3]
          unfold Domain.validateNew at h2
          split at h2
          · simp only [Option.some.injEq] at h2; rw [← h2]
          · rw [Domain.mapConfigs_syncSet h2]

theorem Domain.addAll_syncSet {root : Elem} {qs : List Pos} {d d' : Domain} {att att' : Attached}
    (h : d.addAll root qs att = some (d', att')) (x : Nat) (hx : x ∈ d'.syncSet) :
    x ∈ d.syncSet ∨ ∃ q ∈ qs, x ∈ root.syncerSet q := by
  induction qs generalizing d att with
  | nil => simp only [Domain.addAll, Option.some.injEq, Prod.mk.injEq] at h; rw [h.1]; exact .inl hx
  | cons q qs ih =>
    simp only [Domain.addAll] at h
    split at h
    · simp at h
    · rename_i d1 att1 h1
      rcases ih h with h2 | ⟨r, hr, h2⟩
      · rw [Domain.doAdd_syncSet h1, mem_union] at h2
        rcases h2 with h2 | h2
        · exact .inl h2
        · exact .inr ⟨q, by simp, h2⟩
      · exact .inr ⟨r, by simp [hr], h2⟩

theorem Domain.split_syncSet {root : Elem} {d d' : Domain} {att att' : Attached} {p : Pos}
    (h : d.split root att p = .ok (d', att')) (x : Nat) (hx : x ∈ d'.syncSet) :
    x ∈ d.syncSet ∨ ∃ q ∈ root.childPositions p, x ∈ root.syncerSet q := by
  unfold Domain.split at h
  split at h
  · simp at h
  · split at h
    · simp at h
    · split at h
      · simp at h
      · rename_i d1 att1 h1
        split at h
        · simp at h
        · rename_i d2 h2
          split at h
          · simp at h
          · rename_i r hr
            simp only [Out.ok.injEq] at h
            subst h
            rw [Domain.doRemove_syncSet hr, Domain.mapConfigs_syncSet h2] at hx
            exact Domain.addAll_syncSet h1 x hx

theorem concerns_of_mem {root : Elem} {p : Pos} {x : Nat} (hx : x ∈ root.syncerSet p) : Concerns root p x := by
  obtain ⟨q, g, hq, hg, hs⟩ := C52_nothing_else root x hx
  exact ⟨q, g, hq, hg, hs⟩

theorem Domain.addElem_exact {root e : Elem} (wf : root.WF) {d d' : Domain} (h : d.Mid root) (hx : d.Exact root)
    {att att' : Attached} {p : Pos} (hp : p ∉ d.elems) (he : root.at? p = some e) {main : Option Board}
    (hm : ∀ b, main = some b → b.length = root.footprint) (hk : d.doAdd root att p main = some (d', att')) :
    d'.Exact root := by
  obtain ⟨d1, att1, h1, _, h3, _⟩ := Domain.doAdd_spec wf h (att := att) hp he hm
  rw [hk] at h1
  simp only [Option.some.injEq, Prod.mk.injEq] at h1
  obtain ⟨rfl, rfl⟩ := h1
  intro x hxs
  rw [Domain.doAdd_syncSet hk, mem_union] at hxs
  rcases hxs with hxs | hxs
  · obtain ⟨q, hq, hc⟩ := hx x hxs
    by_cases hd : Pos.isDescendantOf q p = true
    · exact ⟨p, by rw [h3]; simp, hc.up ((Pos.isDescendantOf_iff q p).1 hd).1⟩
    · refine ⟨q, ?_, hc⟩
      rw [h3]
      simp [hq, hd]
  · exact ⟨p, by rw [h3]; simp, concerns_of_mem hxs⟩

theorem Domain.split_exact {root : Elem} (wf : root.WF) {d d' : Domain} (h : d.Good root) (hx : d.Exact root)
    {att att' : Attached} {p : Pos} (hp : p ∈ d.elems) (hne : root.childPositions p ≠ [])
    (hk : d.split root att p = .ok (d', att')) : d'.Exact root := by
  obtain ⟨d1, h1, _, h3, _⟩ := Domain.split_good wf h (att := att) hp hne
  rw [hk] at h1
  simp only [Out.ok.injEq, Prod.mk.injEq] at h1
  obtain ⟨rfl, rfl⟩ := h1
  have hch : ∀ q ∈ root.childPositions p, q ∈ d'.elems := by
    intro q hq
    rw [h3, List.mem_filter]
    obtain ⟨i, e, rfl, _⟩ := Elem.mem_childPositions hq
    exact ⟨List.mem_append_right _ hq, by simp⟩
  intro x hxs
  rcases Domain.split_syncSet hk x hxs with hxs | ⟨q, hq, hxs⟩
  · obtain ⟨q, hq, hc⟩ := hx x hxs
    by_cases hqp : q = p
    · subst hqp
      obtain ⟨r, hr, hc⟩ := hc.down hne
      exact ⟨r, hch r hr, hc⟩
    · refine ⟨q, ?_, hc⟩
      rw [h3]; simp [hq, hqp]
  · exact ⟨q, hch q hq, concerns_of_mem hxs⟩

theorem foldl_union_mem {l : List (Pos × SyncerSet)} {acc : SyncerSet} {x : Nat}
    (h : x ∈ l.foldl (fun acc y => acc.union y.2) acc) : x ∈ acc ∨ ∃ y ∈ l, x ∈ y.2 := by
  induction l generalizing acc with
  | nil => exact .inl h
  | cons y ys ih =>
    rcases ih h with h | ⟨z, hz, h⟩
    · rcases mem_union.1 h with h | h
      · exact .inl h
      · exact .inr ⟨y, by simp, h⟩
    · exact .inr ⟨z, by simp [hz], h⟩

/-- What a domain remembers of each element's syncers is found at that element. -/
def Domain.Pure (root : Elem) (d : Domain) : Prop := ∀ y ∈ d.syncMap, y.1 ∈ d.elems ∧ y.2 = root.syncerSet y.1

theorem Domain.mapConfigs_syncMap {d d' : Domain} {f : Config → Option Config} (h : d.mapConfigs f = some d') :
    d'.syncMap = d.syncMap ∧ d'.elems = d.elems := by
  unfold Domain.mapConfigs at h
  obtain ⟨cs, _, rfl⟩ := Option.map_eq_some_iff.1 h
  exact ⟨rfl, rfl⟩

theorem Domain.mergeLoop_syncMap {root : Elem} {p : Pos} {qs : List Pos} {d d' : Domain}
    (h : d.mergeLoop root p qs = some d') : d'.syncMap = d.syncMap := by
  induction qs generalizing d with
  | nil => simp only [Domain.mergeLoop, Option.some.injEq] at h; rw [h]
  | cons q qs ih =>
    simp only [Domain.mergeLoop] at h
    split at h
    · simp at h
    · rename_i d1 h1
      rw [ih h, (Domain.mapConfigs_syncMap h1).1]

theorem Domain.doRemove_syncMap {d d' : Domain} {att att' : Attached} {p : Pos} {b : Bool}
    (h : d.doRemove att p b = some (d', att')) : d'.syncMap = d.syncMap.filter (fun x => x.1 ≠ p) := by
  unfold Domain.doRemove at h
  split at h
  · simp at h
  · split at h
    · simp at h
    · simp only [Option.some.injEq, Prod.mk.injEq] at h
      rw [← h.1]
      split <;> rfl

theorem Domain.removeLoop_syncMap {qs : List Pos} {d d' : Domain} {att att' : Attached}
    (h : d.removeLoop qs att = some (d', att')) (y : Pos × SyncerSet) (hy : y ∈ d'.syncMap) :
    y ∈ d.syncMap ∧ y.1 ∉ qs := by
  induction qs generalizing d att with
  | nil => simp only [Domain.removeLoop, Option.some.injEq, Prod.mk.injEq] at h; rw [h.1]; exact ⟨hy, by simp⟩
  | cons q qs ih =>
    simp only [Domain.removeLoop] at h
    split at h
    · simp at h
    · rename_i d1 att1 h1
      obtain ⟨h2, h3⟩ := ih h
      rw [Domain.doRemove_syncMap h1, List.mem_filter] at h2
      simp only [ne_eq, decide_eq_true_eq] at h2
      exact ⟨h2.1, by simp [h2.2, h3]⟩

theorem Domain.doAdd_syncMap {root : Elem} {d d' : Domain} {att att' : Attached} {p : Pos} {main : Option Board}
    (h : d.doAdd root att p main = some (d', att')) (y : Pos × SyncerSet) (hy : y ∈ d'.syncMap) :
    (y ∈ d.syncMap ∨ y = (p, root.syncerSet p)) ∧ y.1 ∉ d.elems.filter (fun q => Pos.isDescendantOf q p) := by
  unfold Domain.doAdd at h
  dsimp only at h
  split at h
  · simp at h
  · split at h
    · simp at h
    · rename_i d2 h2
      split at h
      · simp at h
      · rename_i d3 h3
        split at h
        · simp at h
        · rename_i d4 att4 h4
          simp only [Option.some.injEq, Prod.mk.injEq] at h
          rw [← h.1] at hy
          obtain ⟨k1, k2⟩ := Domain.removeLoop_syncMap h4 y hy
          rw [Domain.mergeLoop_syncMap h3] at k1
          have : d2.syncMap = d.syncMap.filter (fun x => x.1 ≠ p) ++ [(p, root.syncerSet p)] ∧ d2.elems = d.elems := by
            unfold Domain.validateNew at h2
            split at h2
            · simp only [Option.some.injEq] at h2; rw [← h2]; exact ⟨rfl, rfl⟩
            · exact Domain.mapConfigs_syncMap h2
          rw [this.1] at k1
          rw [this.2] at k2
          refine ⟨?_, k2⟩
          rcases List.mem_append.1 k1 with k | k
          · exact .inl (List.mem_filter.1 k).1
          · exact .inr (by simpa using k)

theorem Domain.addAll_syncMap {root : Elem} {qs : List Pos} {d d' : Domain} {att att' : Attached}
    (h : d.addAll root qs att = some (d', att')) (y : Pos × SyncerSet) (hy : y ∈ d'.syncMap) :
    y ∈ d.syncMap ∨ (y.1 ∈ qs ∧ y.2 = root.syncerSet y.1) := by
  induction qs generalizing d att with
  | nil => simp only [Domain.addAll, Option.some.injEq, Prod.mk.injEq] at h; rw [h.1]; exact .inl hy
  | cons q qs ih =>
    simp only [Domain.addAll] at h
    split at h
    · simp at h
    · rename_i d1 att1 h1
      rcases ih h with h2 | ⟨h2, h3⟩
      · rcases (Domain.doAdd_syncMap h1 y h2).1 with h3 | rfl
        · exact .inl h3
        · exact .inr ⟨by simp, rfl⟩
      · exact .inr ⟨by simp [h2], h3⟩

theorem Domain.split_syncMap {root : Elem} {d d' : Domain} {att att' : Attached} {p : Pos}
    (h : d.split root att p = .ok (d', att')) (y : Pos × SyncerSet) (hy : y ∈ d'.syncMap) :
    (y ∈ d.syncMap ∨ (y.1 ∈ root.childPositions p ∧ y.2 = root.syncerSet y.1)) ∧ y.1 ≠ p := by
  unfold Domain.split at h
  split at h
  · simp at h
  · split at h
    · simp at h
    · split at h
      · simp at h
      · rename_i d1 att1 h1
        split at h
        · simp at h
        · rename_i d2 h2
          split at h
          · simp at h
          · rename_i r hr
            simp only [Out.ok.injEq] at h
            subst h
            rw [Domain.doRemove_syncMap hr, List.mem_filter, (Domain.mapConfigs_syncMap h2).1] at hy
            simp only [ne_eq, decide_eq_true_eq] at hy
            exact ⟨Domain.addAll_syncMap h1 y hy.1, hy.2⟩

/-- Both facts together. -/
structure Domain.Syncs (root : Elem) (d : Domain) : Prop where
  exact_ : d.Exact root
  pure_ : d.Pure root

theorem Domain.Syncs.same {root : Elem} {d d' : Domain} (h : d.Syncs root) (h1 : d'.elems = d.elems)
    (h2 : d'.syncSet = d.syncSet) (h3 : d'.syncMap = d.syncMap) : d'.Syncs root := by
  refine ⟨?_, ?_⟩
  · intro x hx; rw [h1]; exact h.exact_ x (h2 ▸ hx)
  · intro y hy; rw [h1]; exact h.pure_ y (h3 ▸ hy)

theorem Domain.addElem_syncs {root e : Elem} (wf : root.WF) {d d' : Domain} (h : d.Mid root) (hx : d.Syncs root)
    {att att' : Attached} {p : Pos} (hp : p ∉ d.elems) (he : root.at? p = some e) {main : Option Board}
    (hm : ∀ b, main = some b → b.length = root.footprint) (hk : d.doAdd root att p main = some (d', att')) :
    d'.Syncs root := by
  refine ⟨Domain.addElem_exact wf h hx.exact_ hp he hm hk, ?_⟩
  obtain ⟨d1, att1, h1, _, h3, _⟩ := Domain.doAdd_spec wf h (att := att) hp he hm
  rw [hk] at h1
  simp only [Option.some.injEq, Prod.mk.injEq] at h1
  obtain ⟨rfl, rfl⟩ := h1
  intro y hy
  rw [h3]
  obtain ⟨k1, k2⟩ := Domain.doAdd_syncMap hk y hy
  rcases k1 with k1 | rfl
  · obtain ⟨k3, k4⟩ := hx.pure_ y k1
    refine ⟨?_, k4⟩
    rw [List.mem_filter, not_and] at k2
    simp [k3, k2 k3]
  · exact ⟨by simp, rfl⟩

theorem Domain.split_syncs {root : Elem} (wf : root.WF) {d d' : Domain} (h : d.Good root) (hx : d.Syncs root)
    {att att' : Attached} {p : Pos} (hp : p ∈ d.elems) (hne : root.childPositions p ≠ [])
    (hk : d.split root att p = .ok (d', att')) : d'.Syncs root := by
  refine ⟨Domain.split_exact wf h hx.exact_ hp hne hk, ?_⟩
  obtain ⟨d1, h1, _, h3, _⟩ := Domain.split_good wf h (att := att) hp hne
  rw [hk] at h1
  simp only [Out.ok.injEq, Prod.mk.injEq] at h1
  obtain ⟨rfl, rfl⟩ := h1
  intro y hy
  rw [h3]
  obtain ⟨k1, k2⟩ := Domain.split_syncMap hk y hy
  rcases k1 with k1 | ⟨k1, k4⟩
  · obtain ⟨k3, k4⟩ := hx.pure_ y k1
    exact ⟨by simp [k3, k2], k4⟩
  · exact ⟨by simp [k1, k2], k4⟩

theorem Domain.removeElem_syncs {root : Elem} {d d' : Domain} (h : d.Good root) (hx : d.Syncs root)
    {att att' : Attached} {p : Pos} (hp : p ∈ d.elems) (hk : d.removeElem att p = .ok (d', att')) : d'.Syncs root := by
  obtain ⟨d1, h1, _, h3, _⟩ := Domain.removeElem_good h (att := att) hp
  rw [hk] at h1
  simp only [Out.ok.injEq, Prod.mk.injEq] at h1
  obtain ⟨rfl, rfl⟩ := h1
  unfold Domain.removeElem at hk
  rw [if_neg (by simpa using hp)] at hk
  split at hk
  · simp at hk
  · rename_i r hr
    simp only [Out.ok.injEq] at hk
    subst hk
    have hpure : Domain.Pure root d' := by
      intro y hy
      rw [Domain.doRemove_syncMap hr, List.mem_filter] at hy
      obtain ⟨k3, k4⟩ := hx.pure_ y hy.1
      rw [h3]
      refine ⟨List.mem_filter.2 ⟨k3, by simpa using hy.2⟩, k4⟩
    refine ⟨?_, hpure⟩
    intro x hxs
    have : d'.syncSet = d'.syncMap.foldl (fun (acc : SyncerSet) y => acc.union y.2) [] := by
      unfold Domain.doRemove at hr
      split at hr
      · simp at hr
      · split at hr
        · simp at hr
        · simp only [if_true, Option.some.injEq, Prod.mk.injEq] at hr
          rw [← hr.1]; rfl
    rw [this] at hxs
    rcases foldl_union_mem hxs with hxs | ⟨y, hy, hxs⟩
    · simp at hxs
    · obtain ⟨k1, k2⟩ := hpure y hy
      exact ⟨y.1, k1, concerns_of_mem (by rw [← k2]; exact hxs)⟩

/-- All the domains of a state. -/
def St.Syncs (root : Elem) (st : St) : Prop := ∀ d ∈ st.domains, d.Syncs root

theorem St.Syncs.set {root : Elem} {st : St} (h : st.Syncs root) {d d' : Domain} (hd : d ∈ st.domains)
    (hid : d'.id = d.id) (hs : d'.Syncs root) : (st.setDomain d').Syncs root := by
  intro x hx
  rcases (St.mem_setDomain hd hid).1 hx with rfl | ⟨hx, _⟩
  · exact hs
  · exact h x hx

theorem St.Syncs.onDomain {root : Elem} {st : St} (h : st.Syncs root) (name : Str) (f : Domain → Out (Domain × Attached))
    (hf : ∀ d ∈ st.domains, ∀ d' att, f d = .ok (d', att) → d'.id = d.id ∧ d'.Syncs root) :
    (st.onDomain name f).2.Syncs root := by
  unfold St.onDomain
  split
  · exact h
  · rename_i d hd
    have hdm := (St.findDomain_mem hd).1
    split
    · rename_i d' att hk
      obtain ⟨h1, h2⟩ := hf d hdm d' att hk
      exact h.set hdm h1 h2
    · exact h
    · exact h

theorem St.Syncs.onConfig {root : Elem} {st : St} (h : st.Syncs root) (dom name : Str) (f : Config → Out Unit × Config) :
    (st.onConfig dom name f).2.Syncs root := by
  unfold St.onConfig
  split
  · exact h
  · rename_i d hd
    have hdm := (St.findDomain_mem hd).1
    split
    · exact h
    · exact h.set hdm rfl ((h d hdm).same rfl rfl rfl)

theorem Domain.deleteConfig_head {d d' : Domain} {name : Str} (h : d.deleteConfig name = .ok d') :
    d'.id = d.id ∧ d'.elems = d.elems ∧ d'.syncSet = d.syncSet ∧ d'.syncMap = d.syncMap := by
  unfold Domain.deleteConfig at h
  split at h
  · simp at h
  · simp only [Out.ok.injEq] at h; subst h; exact ⟨rfl, rfl, rfl, rfl⟩

theorem Domain.renameConfig_head {d d' : Domain} {name new : Str} (h : d.renameConfig name new = .ok d') :
    d'.id = d.id ∧ d'.elems = d.elems ∧ d'.syncSet = d.syncSet ∧ d'.syncMap = d.syncMap := by
  unfold Domain.renameConfig at h
  split at h
  · simp at h
  · split at h
    · simp at h
    · simp only [Out.ok.injEq] at h; subst h; exact ⟨rfl, rfl, rfl, rfl⟩

theorem Domain.saveConfig_head {root : Elem} {main : Board} {d d' : Domain} {name : Str}
    (h : d.saveConfig root main name = .ok d') :
    d'.id = d.id ∧ d'.elems = d.elems ∧ d'.syncSet = d.syncSet ∧ d'.syncMap = d.syncMap := by
  unfold Domain.saveConfig at h
  split at h
  · simp at h
  · split at h
    · simp at h
    · simp only [Out.ok.injEq] at h; subst h; exact ⟨rfl, rfl, rfl, rfl⟩

theorem Domain.createConfig_head {root : Elem} {main : Board} {d d' : Domain} {i : Nat} {name : Str}
    (h : d.createConfig root main i name = .ok d') :
    d'.id = d.id ∧ d'.elems = d.elems ∧ d'.syncSet = d.syncSet ∧ d'.syncMap = d.syncMap := by
  unfold Domain.createConfig at h
  split at h
  · simp at h
  · split at h
    · simp at h
    · split at h
      · simp at h
      · split at h
        · simp at h
        · simp only [Out.ok.injEq] at h; subst h; exact ⟨rfl, rfl, rfl, rfl⟩

theorem Domain.restoreConfig_head {root : Elem} {hw : Hardware} {autoSync : Bool} {d d' : Domain} {name : Str}
    {m m' : Mem} {errs : List Str} (h : d.restoreConfig root hw autoSync name m = .ok (d', m', errs)) :
    d'.id = d.id ∧ d'.elems = d.elems ∧ d'.syncSet = d.syncSet ∧ d'.syncMap = d.syncMap := by
  unfold Domain.restoreConfig at h
  split at h
  · simp at h
  · split at h
    · simp at h
    · dsimp only at h
      split at h <;>
      · simp only [Out.ok.injEq, Prod.mk.injEq] at h; obtain ⟨rfl, _⟩ := h; exact ⟨rfl, rfl, rfl, rfl⟩

theorem St.setConfigParam_domains {env : Env} {ctx : Ctx} {autoSync : Bool} {dom conf path text : Str} {st : St} :
    (st.setConfigParam env ctx autoSync dom conf path text).2.domains = st.domains ∨
    ∃ d ∈ st.domains, ∃ c, (st.setConfigParam env ctx autoSync dom conf path text).2.domains =
      (st.setDomain (d.setConfig c)).domains := by
  unfold St.setConfigParam
  split
  · exact .inl rfl
  · rename_i d c q isLast hb
    obtain ⟨_, _, hd, _⟩ := St.findBlackboard_spec hb
    split
    · rename_i a base _ _
      right
      refine ⟨d, (St.findDomain_mem hd).1, Config.mk c.id c.name c.rule (setArea q
        (Area.mk a.elem (Elem.setText env.rd ctx env.root base a.board path text).2 a.valid) c.areas), ?_⟩
      dsimp only
      split
      · split <;> rfl
      · rfl
    · exact .inl rfl

theorem elemsFromXml_syncs {root : Elem} (wf : root.WF) {xs : List Xml} {d : Domain} (h : d.Loading root)
    (hx : d.Syncs root) {att : Attached} (ha : ∀ p, (p, d.id) ∈ att ↔ p ∈ d.elems) {d' : Domain} {att' : Attached}
    (hk : elemsFromXml root xs d att = .ok (d', att')) : d'.Syncs root := by
  induction xs generalizing d att with
  | nil =>
    simp only [elemsFromXml, Out.ok.injEq, Prod.mk.injEq] at hk
    obtain ⟨rfl, rfl⟩ := hk
    exact hx
  | cons x xs ih =>
    have h1 := (elemsFromXml_spec wf (xs := [x]) h ha).2
    simp only [elemsFromXml] at hk h1
    split at hk
    · simp at hk
    rename_i p hp
    obtain ⟨e, he⟩ := Elem.locate_at hp
    simp only [obind_ok] at hk
    obtain ⟨⟨d1, att1⟩, k1, k2⟩ := hk
    obtain ⟨l1, hh, a1, _⟩ := h1 d1 att1 (by simp [hp, k1, Out.bind])
    refine ih l1 ?_ ?_ k2
    · unfold Domain.addElem at k1
      split at k1
      · simp at k1
      · rename_i hm
        split at k1
        · simp at k1
        · cases hd : d.doAdd root att p none with
          | none => rw [hd] at k1; simp at k1
          | some r =>
            rw [hd] at k1
            simp only [Out.ok.injEq] at k1
            subst k1
            exact Domain.addElem_syncs wf h.toMid hx hm he (by simp) hd
    · intro q
      rw [a1, hh.id]; simp

theorem Domain.fromXml_syncs {root : Elem} (wf : root.WF) {rd : Reader} {cs : List Criterion} {withSettings : Bool}
    {n : Nat} {att : Attached} (hatt : ∀ p, (p, n) ∉ att) {aware : Bool} {x : Xml} {d : Domain} {att' : Attached} {m : Nat}
    (h : Domain.fromXml root rd cs withSettings n att aware x = .ok (d, att', m)) : d.Syncs root := by
  obtain ⟨confs, els, configs, d0, gs, gv, st⟩ := Domain.fromXml_stages wf hatt h
  obtain ⟨c1, c2, c3, c4⟩ := configsFromXml_spec st.hConfigs
  have hb : (Domain.blank n aware x configs).Loading root := Domain.blank_loading (by rw [c1]; exact List.nodup_range') c3
  have := elemsFromXml_syncs wf hb ⟨by simp [Domain.Exact, Domain.blank, Domain.new], by simp [Domain.Pure, Domain.blank, Domain.new]⟩
    (by intro p; simp [Domain.blank, Domain.new, hatt]) st.hElems
  rw [st.result]
  exact this.same rfl rfl rfl

theorem St.Syncs.step {env : Env} (wf : env.root.WF) {st : St} (h : st.Inv env.root) (hs : st.Syncs env.root) (op : DomOp) :
    (op.step env st).2.Syncs env.root := by
  cases op with
  | createDomain name =>
    simp only [DomOp.step, St.createDomain]
    split
    · exact hs
    · intro d hd
      rcases List.mem_append.1 hd with hd | hd
      · exact hs d hd
      · simp only [List.mem_cons, List.not_mem_nil, or_false] at hd; subst hd
        exact ⟨by simp [Domain.Exact, Domain.new], by simp [Domain.Pure, Domain.new]⟩
  | deleteDomain name =>
    simp only [DomOp.step, St.deleteDomain]
    split
    · exact hs
    · exact fun d hd => hs d (List.mem_filter.1 hd).1
  | deleteAllDomains => intro d hd; simp [DomOp.step, St.deleteAllDomains] at hd
  | renameDomain name new =>
    simp only [DomOp.step, St.renameDomain]
    split
    · exact hs
    · rename_i d hd
      split
      · exact hs
      · have hdm := (St.findDomain_mem hd).1
        exact hs.set (d' := { d with name := new }) hdm rfl ((hs d hdm).same rfl rfl rfl)
  | setSequenceAwareness name aware =>
    refine hs.onDomain name _ ?_
    intro d hd d' att hk
    simp only [Out.ok.injEq, Prod.mk.injEq] at hk
    obtain ⟨rfl, rfl⟩ := hk
    exact ⟨rfl, (hs d hd).same rfl rfl rfl⟩
  | createConfiguration dom name =>
    simp only [DomOp.step, St.createConfiguration]
    split
    · exact hs
    · rename_i d hd
      split
      · rename_i d' hk
        have hdm := (St.findDomain_mem hd).1
        obtain ⟨h1, h2, h3, h4⟩ := Domain.createConfig_head hk
        exact hs.set hdm h1 ((hs d hdm).same h2 h3 h4)
      · exact hs
      · exact hs
  | deleteConfiguration dom name =>
    refine hs.onDomain dom _ ?_
    intro d hd d' att hk
    cases hc : d.deleteConfig name with
    | err => rw [hc] at hk; simp [Out.bind] at hk
    | abort => rw [hc] at hk; simp [Out.bind] at hk
    | ok d1 =>
      rw [hc] at hk
      simp only [Out.bind, Out.ok.injEq, Prod.mk.injEq] at hk
      obtain ⟨rfl, rfl⟩ := hk
      obtain ⟨h1, h2, h3, h4⟩ := Domain.deleteConfig_head hc
      exact ⟨h1, (hs d hd).same h2 h3 h4⟩
  | renameConfiguration dom name new =>
    refine hs.onDomain dom _ ?_
    intro d hd d' att hk
    cases hc : d.renameConfig name new with
    | err => rw [hc] at hk; simp [Out.bind] at hk
    | abort => rw [hc] at hk; simp [Out.bind] at hk
    | ok d1 =>
      rw [hc] at hk
      simp only [Out.bind, Out.ok.injEq, Prod.mk.injEq] at hk
      obtain ⟨rfl, rfl⟩ := hk
      obtain ⟨h1, h2, h3, h4⟩ := Domain.renameConfig_head hc
      exact ⟨h1, (hs d hd).same h2 h3 h4⟩
  | saveConfiguration dom name =>
    refine hs.onDomain dom _ ?_
    intro d hd d' att hk
    cases hc : d.saveConfig env.root st.mem.main name with
    | err => rw [hc] at hk; simp [Out.bind] at hk
    | abort => rw [hc] at hk; simp [Out.bind] at hk
    | ok d1 =>
      rw [hc] at hk
      simp only [Out.bind, Out.ok.injEq, Prod.mk.injEq] at hk
      obtain ⟨rfl, rfl⟩ := hk
      obtain ⟨h1, h2, h3, h4⟩ := Domain.saveConfig_head hc
      exact ⟨h1, (hs d hd).same h2 h3 h4⟩
  | restoreConfiguration autoSync dom name =>
    simp only [DomOp.step, St.restoreConfiguration]
    split
    · exact hs
    · rename_i d hd
      have hdm := (St.findDomain_mem hd).1
      split
      · rename_i d' m' errs hk
        obtain ⟨h1, h2, h3, h4⟩ := Domain.restoreConfig_head hk
        exact hs.set hdm h1 ((hs d hdm).same h2 h3 h4)
      · exact hs
      · exact hs
  | addElement dom path =>
    simp only [DomOp.step, St.atPath]
    split
    · exact hs
    · rename_i p hp
      obtain ⟨e, he⟩ := Elem.locate_at hp
      refine hs.onDomain dom _ ?_
      intro d hd d' att hk
      unfold Domain.addElem at hk
      split at hk
      · simp at hk
      · rename_i hp
        split at hk
        · simp at hk
        · rename_i hb
          have hanc : ∀ q ∈ d.elems, ¬ q <+: p := by
            intro q hq hqp
            exact hb ((h.belongs hd p).2 ⟨q, hq, hqp⟩)
          obtain ⟨d1, att1, h1, _, _, h4, _⟩ := Domain.addElem_good wf (h.good d hd) (att := st.attached) hp hanc he h.main
          rw [h1] at hk
          simp only [Out.ok.injEq, Prod.mk.injEq] at hk
          obtain ⟨rfl, rfl⟩ := hk
          exact ⟨h4.id, Domain.addElem_syncs wf (h.good d hd).toMid (hs d hd) hp he
            (fun b hb => by cases hb; exact h.main) h1⟩
  | removeElement dom path =>
    simp only [DomOp.step, St.atPath]
    split
    · exact hs
    · rename_i p _
      refine hs.onDomain dom _ ?_
      intro d hd d' att hk
      by_cases hp : p ∈ d.elems
      · obtain ⟨d1, h1, _, _, h4, _⟩ := Domain.removeElem_good (h.good d hd) (att := st.attached) hp
        have hk' := hk
        rw [h1] at hk
        simp only [Out.ok.injEq, Prod.mk.injEq] at hk
        obtain ⟨rfl, rfl⟩ := hk
        exact ⟨h4.id, Domain.removeElem_syncs (h.good d hd) (hs d hd) hp hk'⟩
      · simp [Domain.removeElem, hp] at hk
  | split dom path =>
    simp only [DomOp.step, St.atPath]
    split
    · exact hs
    · rename_i p _
      unfold St.split
      split
      · exact hs
      · rename_i d hd
        have hdm := (St.findDomain_mem hd).1
        split
        · rename_i d' att hk
          have hp : p ∈ d.elems := by
            apply Classical.byContradiction
            intro hp; simp [Domain.split, hp] at hk
          have hne : env.root.childPositions p ≠ [] := by
            intro hne; simp [Domain.split, hp, hne] at hk
          obtain ⟨d1, h1, _, _, h4, _⟩ := Domain.split_good wf (h.good d hdm) (att := st.attached) hp hne
          have hk' := hk
          rw [h1] at hk
          simp only [Out.ok.injEq, Prod.mk.injEq] at hk
          obtain ⟨rfl, rfl⟩ := hk
          exact hs.set hdm h4.id (Domain.split_syncs wf (h.good d hdm) (hs d hdm) hp hne hk')
        · exact hs
        · exact hs
  | setElementSequence dom name paths => exact hs.onConfig dom name _
  | setApplicationRule dom name text => exact hs.onConfig dom name _
  | clearApplicationRule dom name => exact hs.onConfig dom name _
  | setConfigurationParameter ctx autoSync dom conf path text =>
    show ∀ d ∈ (st.setConfigParam env ctx autoSync dom conf path text).2.domains, d.Syncs env.root
    rcases St.setConfigParam_domains (env := env) (ctx := ctx) (autoSync := autoSync) (dom := dom) (conf := conf)
      (path := path) (text := text) (st := st) with he | ⟨d, hd, c, he⟩
    · rw [he]; exact hs
    · rw [he]; exact hs.set hd rfl ((hs d hd).same rfl rfl rfl)
  | setParameter ctx autoSync path text => exact hs
  | setElementBytes autoSync path bytes =>
    simp only [DomOp.step, St.atPath]
    split
    · exact hs
    · exact hs
  | handleSet p v => exact hs
  | handleBytes autoSync p bytes =>
    simp only [DomOp.step]
    split
    · exact hs
    · exact hs
  | setElementXml ctx autoSync path doc =>
    simp only [DomOp.step, St.atPath]
    split
    · exact hs
    · exact hs
  | handleXml ctx autoSync p doc =>
    simp only [DomOp.step]
    split
    · exact hs
    · exact hs
  | importDomains withSettings doc =>
    simp only [DomOp.step]
    by_cases hok : (st.importDomains env.root env.rd withSettings doc).1 = .ok ()
    · obtain ⟨ds, att, n, gm, h1, h2, h3, _⟩ := h.importDomains_ok wf env.rd withSettings hok
      rw [h2]
      intro d hd
      obtain ⟨d0, hd0, rfl⟩ := List.mem_map.1 hd
      obtain ⟨g, k1, _⟩ := h3 d0 hd0
      obtain ⟨_, _, _, _, hl, hr⟩ := domainsFromXml_spec wf (by simp) h1
      obtain ⟨k, hk, rfl⟩ := List.getElem_of_mem hd0
      obtain ⟨n', att0, aware, att', m, e1, _, e2⟩ := hr k doc.children[k] ds[k] (List.getElem?_eq_getElem (by omega))
        (List.getElem?_eq_getElem hk)
      rw [k1]
      exact (Domain.fromXml_syncs wf e1 e2).same rfl rfl rfl
    · rw [St.importDomains_fail hok]
      intro d hd
      simp [St.deleteAllDomains] at hd
  | importDomain overwrite withSettings doc =>
    simp only [DomOp.step]
    by_cases hok : (st.importDomain env.root env.rd overwrite withSettings doc).1 = .ok ()
    · obtain ⟨aware, d, att, n, _, _, h3, h4⟩ := St.importDomain_ok hok
      have hd := Domain.fromXml_syncs wf h.fresh_attached h3
      rcases h4 with ⟨_, h4⟩ | ⟨old, _, _, h4⟩
      · rw [h4]
        intro x hx
        rcases List.mem_append.1 hx with hx | hx
        · exact hs x hx
        · rw [List.mem_singleton.1 hx]; exact hd
      · rw [h4]
        intro x hx
        rcases List.mem_append.1 hx with hx | hx
        · exact hs x (List.mem_filter.1 hx).1
        · rw [List.mem_singleton.1 hx]; exact hd
    · rw [St.importDomain_fail hok]
      exact hs
  | sync => exact hs
  | setCriterion i v => exact hs
  | askResync i => exact hs
  | apply force =>
    obtain ⟨b, log, h1, _⟩ := h.apply_eq wf env.hw force
    simp only [DomOp.step, h1]
    intro d hd
    obtain ⟨d0, hd0, rfl⟩ := List.mem_map.1 hd
    exact (hs d0 hd0).same rfl rfl rfl

theorem Reachable.syncs {env : Env} (wf : env.root.WF) {cs : List Criterion} {st : St} (h : Reachable env cs st) :
    st.Syncs env.root := by
  induction h with
  | init _ => intro d hd; simp [St.initial] at hd
  | step hr hreg _ ih => exact ih.step wf (hr.inv wf) _

/-- The syncers a domain collects: exactly those that concern its elements. -/
theorem Reachable.syncSet_iff {env : Env} (wf : env.root.WF) (nn : env.root.SyncersNotNested) {cs : List Criterion} {st : St}
    (h : Reachable env cs st) {d : Domain} (hd : d ∈ st.domains) (x : Nat) :
    x ∈ d.syncSet ↔ ∃ p ∈ d.elems, Concerns env.root p x := by
  constructor
  · exact (h.syncs wf d hd).exact_ x
  · rintro ⟨p, hp, hc⟩
    have g := (h.inv wf).good d hd
    obtain ⟨e, he⟩ := g.at_ p hp
    exact g.covers p hp x ((syncerSet_iff nn he x).2 hc)

end PF
