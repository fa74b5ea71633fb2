import Verif.Lemmas.Listing

/-! # Lemmas on the listings of the domains -/

namespace PF
open Spec

theorem St.domainName_some {st : St} (nd : (st.domains.map (·.id)).Nodup) {d : Domain} (hd : d ∈ st.domains) :
    st.domainName d.id = some d.name := by
  unfold St.domainName
  cases hf : st.domains.find? (fun x => x.id == d.id) with
  | none => exact absurd (List.find?_eq_none.1 hf d hd) (by simp)
  | some x =>
    have h1 := List.find?_some hf
    have h2 := List.mem_of_find?_eq_some hf
    rw [nodup_map_inj nd h2 hd (by simpa using h1)]
    rfl

/-- A list of addresses of domains. -/
theorem St.domains_of_ids {st : St} (nd : (st.domains.map (·.id)).Nodup) {ids : List Nat}
    (h : ∀ i ∈ ids, ∃ d ∈ st.domains, d.id = i) :
    ∃ ds : List Domain, ds.map (·.id) = ids ∧ (∀ d, d ∈ ds ↔ d ∈ st.domains ∧ d.id ∈ ids) ∧
      mapAll st.domainName ids = some (ds.map (·.name)) := by
  induction ids with
  | nil => exact ⟨[], rfl, by simp, rfl⟩
  | cons i ids ih =>
    obtain ⟨ds, h1, h2, h3⟩ := ih (fun j hj => h j (by simp [hj]))
    obtain ⟨d, hd, rfl⟩ := h i (by simp)
    refine ⟨d :: ds, by simp [h1], ?_, ?_⟩
    · intro x
      rw [List.mem_cons, h2, List.mem_cons]
      constructor
      · rintro (rfl | ⟨h, h'⟩)
        · exact ⟨hd, .inl rfl⟩
        · exact ⟨h, .inr h'⟩
      · rintro ⟨h, h' | h'⟩
        · exact .inl (nodup_map_inj nd h hd h')
        · exact .inr ⟨h, h'⟩
    · simp [mapAll, St.domainName_some nd hd, h3]

theorem nodup_domainsAt {att : Attached} (nd : att.Nodup) (p : Pos) : (att.domainsAt p).Nodup := by
  unfold Attached.domainsAt
  refine List.Nodup.map_on ?_ (nd.filter _)
  rintro ⟨a, i⟩ ha ⟨b, j⟩ hb hij
  simp only [List.mem_filter, decide_eq_true_eq] at ha hb
  simp only at hij
  rw [ha.2, hb.2, hij]

/-- Two elements of a domain that contain an element are the same. -/
theorem St.Inv.att_unique {root : Elem} {st : St} (hi : st.Inv root) {p q q' : Pos} {i : Nat} (h : (q, i) ∈ st.attached)
    (h' : (q', i) ∈ st.attached) (hq : q <+: p) (hq' : q' <+: p) : q = q' := by
  obtain ⟨d, hd, rfl, he⟩ := (hi.att q i).1 h
  obtain ⟨d', hd', hdd, he'⟩ := (hi.att q' _).1 h'
  rw [nodup_map_inj hi.ids hd' hd hdd] at he'
  rcases List.prefix_or_prefix_of_prefix hq hq' with h | h
  · exact (hi.good d hd).antichain _ he _ he' h
  · exact ((hi.good d hd).antichain _ he' _ he h).symm

/-- The domains of an element, the closest first. -/
theorem St.Inv.belonging_ordered {root : Elem} {st : St} (hi : st.Inv root) (nd : st.attached.Nodup) (p : Pos) :
    (st.attached.belonging p).Pairwise fun i j => i ≠ j ∧
      ∀ q q', q <+: p → q' <+: p → (q, i) ∈ st.attached → (q', j) ∈ st.attached → q'.length ≤ q.length := by
  unfold Attached.belonging
  rw [List.pairwise_flatMap]
  have key : ∀ n q i, i ∈ st.attached.domainsAt (p.take n) → q <+: p → (q, i) ∈ st.attached → q = p.take n := by
    intro n q i hn hq ha
    exact hi.att_unique ha (mem_domainsAt.1 hn) hq (List.take_prefix _ _)
  constructor
  · intro n _
    refine (nodup_domainsAt nd (p.take n)).imp_of_mem ?_
    intro i j hin hjn hij
    refine ⟨hij, fun q q' hq hq' ha ha' => ?_⟩
    rw [key n q i hin hq ha, key n q' j hjn hq' ha']
  · rw [List.pairwise_reverse]
    refine List.pairwise_lt_range.imp_of_mem ?_
    intro n m hn hm hnm i hi' j hj'
    simp only [List.mem_range] at hn hm
    refine ⟨?_, fun q q' hq hq' ha ha' => ?_⟩
    · rintro rfl
      have := key m _ i hi' (List.take_prefix n p) (mem_domainsAt.1 hj')
      have := congrArg List.length this
      simp only [List.length_take] at this
      omega
    · rw [key m q i hi' hq ha, key n q' j hj' hq' ha']
      simp only [List.length_take]
      omega

/-! ## The elements of the domains -/

theorem mem_insertElem (addr : Pos → Nat) (p q : Pos) (l : List Pos) : q ∈ insertElem addr p l ↔ q = p ∨ q ∈ l := by
  induction l with
  | nil => simp [insertElem]
  | cons x l ih =>
    unfold insertElem
    split
    · simp
    · split
      · rename_i h; subst h; simp
      · simp only [List.mem_cons, ih]; exact or_left_comm

theorem insertElem_sorted (addr : Pos → Nat) (p : Pos) (l : List Pos)
    (h : l.Pairwise (fun a b => a ≠ b ∧ addr a ≤ addr b)) :
    (insertElem addr p l).Pairwise (fun a b => a ≠ b ∧ addr a ≤ addr b) := by
  induction l with
  | nil => simp [insertElem]
  | cons x l ih =>
    obtain ⟨h1, h2⟩ := List.pairwise_cons.1 h
    unfold insertElem
    split
    · rename_i hlt
      refine List.pairwise_cons.2 ⟨?_, h⟩
      intro y hy
      rcases List.mem_cons.1 hy with rfl | hy
      · exact ⟨by rintro rfl; omega, by omega⟩
      · have := (h1 y hy).2
        exact ⟨by rintro rfl; omega, by omega⟩
    · split
      · exact h
      · rename_i hlt hne
        refine List.pairwise_cons.2 ⟨?_, ih h2⟩
        intro y hy
        rcases (mem_insertElem addr p y l).1 hy with rfl | hy
        · exact ⟨fun h => hne h.symm, by omega⟩
        · exact h1 y hy

theorem insertAll_spec (addr : Pos → Nat) (ps l : List Pos) (h : l.Pairwise (fun a b => a ≠ b ∧ addr a ≤ addr b)) :
    (ps.foldl (fun l p => insertElem addr p l) l).Pairwise (fun a b => a ≠ b ∧ addr a ≤ addr b) ∧
    ∀ q, q ∈ ps.foldl (fun l p => insertElem addr p l) l ↔ q ∈ ps ∨ q ∈ l := by
  induction ps generalizing l with
  | nil => exact ⟨h, by simp⟩
  | cons p ps ih =>
    obtain ⟨h1, h2⟩ := ih _ (insertElem_sorted addr p l h)
    refine ⟨h1, fun q => ?_⟩
    rw [List.foldl_cons, h2, mem_insertElem, List.mem_cons]
    constructor
    · rintro (h | h | h) <;> simp [h]
    · rintro ((h | h) | h) <;> simp [h]

theorem gatherElems_spec (addr : Pos → Nat) (ds : List Domain) :
    (gatherElems addr ds).Pairwise (fun a b => a ≠ b ∧ addr a ≤ addr b) ∧
    ∀ q, q ∈ gatherElems addr ds ↔ ∃ d ∈ ds, q ∈ d.elems := by
  suffices ∀ (ds : List Domain) (l : List Pos), l.Pairwise (fun a b => a ≠ b ∧ addr a ≤ addr b) →
      (ds.foldl (fun l d => d.elems.foldl (fun l p => insertElem addr p l) l) l).Pairwise
        (fun a b => a ≠ b ∧ addr a ≤ addr b) ∧
      ∀ q, q ∈ ds.foldl (fun l d => d.elems.foldl (fun l p => insertElem addr p l) l) l ↔
        (∃ d ∈ ds, q ∈ d.elems) ∨ q ∈ l by
    obtain ⟨h1, h2⟩ := this ds [] List.Pairwise.nil
    exact ⟨h1, fun q => by rw [gatherElems, h2]; simp⟩
  intro ds
  induction ds with
  | nil => intro l h; exact ⟨h, by simp⟩
  | cons d ds ih =>
    intro l h
    obtain ⟨h1, h2⟩ := insertAll_spec addr d.elems l h
    obtain ⟨h3, h4⟩ := ih _ h1
    refine ⟨h3, fun q => ?_⟩
    rw [List.foldl_cons, h4, h2]
    simp only [List.mem_cons, exists_eq_or_imp]
    constructor
    · rintro (h | h | h) <;> simp [h]
    · rintro ((h | h) | h) <;> simp [h]

end PF
