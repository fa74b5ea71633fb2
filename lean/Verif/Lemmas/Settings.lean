import Verif.Lemmas.Lookup
import Verif.Lemmas.Shift

/-! # What the restoration of a configuration gives, before and after an operation -/

namespace PF
open Spec

theorem nodup_of_map {α β : Type} {f : α → β} {l : List α} (h : (l.map f).Nodup) : l.Nodup := by
  induction l with
  | nil => simp
  | cons a l ih =>
    rw [List.map_cons, List.nodup_cons] at h
    exact List.nodup_cons.2 ⟨fun hx => h.1 (List.mem_map.2 ⟨a, hx, rfl⟩), ih h.2⟩

theorem map_some_inj {α : Type} {l m : List α} (h : l.map some = m.map some) : l = m := by
  induction l generalizing m with
  | nil => cases m <;> simp_all
  | cons a l ih =>
    cases m with
    | nil => simp at h
    | cons b m =>
      simp only [List.map_cons, List.cons.injEq, Option.some.injEq] at h
      rw [h.1, ih h.2]

section
variable {root : Elem} (wf : root.WF) (fd : root.FieldsDisjoint)

theorem restored_eq (hw : Hardware) (autoSync : Bool) (st : St) (m : Mem) {dom name : Str} {d : Domain}
    {c : Config} (hd : st.findDomain dom = some d) (hc : d.findConfig name = some c) :
    restored root hw autoSync st m dom name =
      (restoreAreas root hw d.syncOf (autoSync && d.seqAware) c.areas m).map (fun r => r.1.main) := by
  unfold restored St.restoreConfiguration
  have hd' : St.findDomain { st with mem := m } dom = some d := hd
  rw [hd']
  dsimp only
  unfold Domain.restoreConfig
  rw [hc]
  dsimp only
  cases restoreAreas root hw d.syncOf (autoSync && d.seqAware) c.areas m with
  | none => rfl
  | some r =>
    obtain ⟨m', errs⟩ := r
    dsimp only
    by_cases h : (autoSync && !d.seqAware) = true
    · rw [if_pos h]; rfl
    · rw [if_neg h]; rfl

theorem restored_found {hw : Hardware} {autoSync : Bool} {st : St} {m : Mem} {dom name : Str} {b : Board}
    (h : restored root hw autoSync st m dom name = some b) :
    ∃ d c, st.findDomain dom = some d ∧ d.findConfig name = some c := by
  unfold restored St.restoreConfiguration at h
  have hd' : St.findDomain { st with mem := m } dom = st.findDomain dom := rfl
  rw [hd'] at h
  cases hd : st.findDomain dom with
  | none => simp [hd] at h
  | some d =>
    refine ⟨d, ?_⟩
    cases hc : d.findConfig name with
    | none => simp [hd, Domain.restoreConfig, hc] at h
    | some c => exact ⟨c, rfl, rfl⟩

include wf fd in
/-- What a restoration gives: the settings of the configuration in the elements of the domain, and
the memory elsewhere. -/
theorem St.Inv.restored {st : St} (inv : st.Inv root) (hw : Hardware) (autoSync : Bool) {m : Mem}
    (hm : m.main.length = root.footprint) {dom name : Str} {d : Domain} {c : Config}
    (hd : st.findDomain dom = some d) (hc : d.findConfig name = some c) :
    ∃ b, Spec.restored root hw autoSync st m dom name = some b ∧ b.length = root.footprint ∧
      (∀ i, (∀ p ∈ d.elems, ¬ root.Owns p i) → b.bit i = m.main.bit i) ∧
      (∀ p ∈ d.elems, ∀ a, c.area? p = some a → ∀ i, root.Owns p i → b.bit i = a.value root i) := by
  obtain ⟨m', errs, h1, h2, h3, h4, _⟩ := Domain.restore_spec wf fd (inv.good d (St.findDomain_mem hd).1) hw
    (autoSync && d.seqAware) hm (Domain.findConfig_mem hc).1
  exact ⟨m'.main, by rw [restored_eq hw autoSync st m hd hc, h1]; rfl, h2, h3, h4⟩

include wf fd in
/-- Two boards restored from the same memory agree if the settings agree. -/
theorem St.Inv.restored_same {st st' : St} (inv : st.Inv root) (inv' : st'.Inv root) (hw hw' : Hardware)
    (autoSync autoSync' : Bool) {m : Mem}
    (hm : m.main.length = root.footprint) {dom name dom' name' : Str} {d d' : Domain} {c c' : Config}
    (hd : st.findDomain dom = some d) (hc : d.findConfig name = some c) (hd' : st'.findDomain dom' = some d')
    (hc' : d'.findConfig name' = some c') (he : ∀ p, p ∈ d'.elems ↔ p ∈ d.elems)
    (hv : ∀ p ∈ d.elems, ∀ a a', c.area? p = some a → c'.area? p = some a' → ∀ i, root.Owns p i →
      a'.value root i = a.value root i) :
    Spec.restored root hw' autoSync' st' m dom' name' = Spec.restored root hw autoSync st m dom name := by
  obtain ⟨b, h1, h2, h3, h4⟩ := inv.restored wf fd hw autoSync hm hd hc
  obtain ⟨b', g1, g2, g3, g4⟩ := inv'.restored wf fd hw' autoSync' hm hd' hc'
  rw [h1, g1]
  congr 1
  refine Board.ext_bits (by omega) fun i => ?_
  by_cases hi : ∃ p ∈ d.elems, root.Owns p i
  · obtain ⟨p, hp, ho⟩ := hi
    obtain ⟨a, ha, _⟩ := ((inv.good d (St.findDomain_mem hd).1).ok c (Domain.findConfig_mem hc).1).area hp
    obtain ⟨a', ha', _⟩ := ((inv'.good d' (St.findDomain_mem hd').1).ok c' (Domain.findConfig_mem hc').1).area ((he p).2 hp)
    rw [h4 p hp a ha i ho, g4 p ((he p).2 hp) a' ha' i ho, hv p hp a a' ha ha' i ho]
  · rw [h3 i (fun p hp ho => hi ⟨p, hp, ho⟩), g3 i (fun p hp ho => hi ⟨p, (he p).1 hp, ho⟩)]

end

theorem find_map {α : Type} {key : α → Str} {name : Str} {l : List α} {g : α → α} (hg : ∀ a ∈ l, key (g a) = key a) :
    (l.map g).find? (fun x => key x == name) = (l.find? (fun x => key x == name)).map g := by
  induction l with
  | nil => rfl
  | cons a l ih =>
    rw [List.map_cons, List.find?_cons, List.find?_cons, hg a (by simp), ih (fun b hb => hg b (by simp [hb]))]
    cases key a == name <;> rfl

/-- Lookup in a domain whose configurations were all changed. -/
theorem Domain.findConfig_map {d d' : Domain} {g : Config → Config} (h : d'.configs = d.configs.map g)
    (hs : ∀ c ∈ d.configs, Config.Same c (g c)) (name : Str) : d'.findConfig name = (d.findConfig name).map g := by
  unfold Domain.findConfig
  rw [h]
  refine find_map (key := Config.pathName) fun c hc => ?_
  simp [Config.pathName, (hs c hc).2.1]

/-- Looking up another domain after one is changed. -/
theorem St.Inv.findDomain_set_ne {root : Elem} {st : St} (h : st.Inv root) {name name' : Str} {d d' : Domain}
    (hd : st.findDomain name = some d) (h1 : d'.id = d.id) (h2 : d'.name = d.name) (hne : name' ≠ name) :
    (st.setDomain d').findDomain name' = st.findDomain name' :=
  find_set_ne (f := Domain.id) (key := Domain.pathName) (St.findDomain_mem hd).1 h.ids h1
    (by simp [Domain.pathName, h2]) (by rw [(St.findDomain_mem hd).2]; exact fun e => hne e.symm)

theorem restored_other {root : Elem} {hw : Hardware} {autoSync : Bool} {st st' : St} {m : Mem} {dom name : Str}
    (h : st'.findDomain dom = st.findDomain dom) (hx : (restored root hw autoSync st m dom name).isSome) :
    restored root hw autoSync st' m dom name = restored root hw autoSync st m dom name := by
  obtain ⟨b, hb⟩ := Option.isSome_iff_exists.1 hx
  obtain ⟨d, c, hd, hc⟩ := restored_found hb
  rw [restored_eq hw autoSync st m hd hc, restored_eq hw autoSync st' m (h ▸ hd) hc]

theorem restored_none {root : Elem} {hw : Hardware} {autoSync : Bool} {st st' : St} {m : Mem} {dom name : Str}
    (h : st'.findDomain dom = st.findDomain dom) :
    restored root hw autoSync st' m dom name = restored root hw autoSync st m dom name := by
  cases hx : restored root hw autoSync st m dom name with
  | some b => rw [← hx]; exact restored_other h (by simp [hx])
  | none =>
    cases hy : restored root hw autoSync st' m dom name with
    | none => rfl
    | some b =>
      have := restored_other (st := st') (st' := st) h.symm (root := root) (hw := hw) (autoSync := autoSync) (m := m)
        (name := name) (by simp [hy])
      rw [hx, hy] at this
      simp at this

/-- The children of a group cover it. -/
theorem Elem.group_covered {root e : Elem} (wf : root.WF) {p : Pos} {k : Str} (he : root.at? p = some e)
    (hk : e.kind = .group k) {i : Nat} (ho : root.Owns p i) : ∃ q ∈ root.childPositions p, root.Owns q i := by
  obtain ⟨e', o, he', ho', h1, h2⟩ := ho
  rw [he] at he'
  simp only [Option.some.injEq] at he'
  subst he'
  have hw : e.WF := by
    rcases wf.at he with h | ⟨_, _, _, _, _, _, _, _, _, _, _, rfl, _⟩
    · exact h
    · simp [Elem.kind] at hk
  cases e with | mk nm k' sy cs =>
  simp only [Elem.kind] at hk
  subst hk
  simp only [Elem.extent, Elem.kind, Elem.footprint_group] at h1 h2
  have hnb : ∀ c ∈ cs, ∀ t, c.kind ≠ .bit t := by
    cases hw with | group _ hb => exact hb
  have : ∃ j c, cs[j]? = some c ∧ o + Elem.footprints (cs.take j) ≤ i / 8 ∧
      i / 8 < o + Elem.footprints (cs.take j) + c.footprint := by
    clear ho' he hw hnb
    have h1 : o ≤ i / 8 := by omega
    have h2 : i / 8 < o + Elem.footprints cs := by omega
    induction cs generalizing o with
    | nil => simp [Elem.footprints] at h2; omega
    | cons c cs ihc =>
      by_cases hlt : i / 8 < o + c.footprint
      · exact ⟨0, c, rfl, by simp [Elem.footprints]; omega, by simp [Elem.footprints]; omega⟩
      · obtain ⟨j, d, hd, h3, h4⟩ := ihc (o + c.footprint) (by omega) (by simp only [Elem.footprints] at h2; omega)
          (by omega) (by simp only [Elem.footprints] at h2; omega)
        refine ⟨j + 1, d, by simpa using hd, ?_, ?_⟩ <;> simp only [List.take_succ_cons, Elem.footprints] <;> omega
  obtain ⟨j, c, hc, h3, h4⟩ := this
  have hat : root.at? (p ++ [j]) = some c := by
    rw [Elem.at?_append, he, Option.bind_some, Elem.at?_single]; exact hc
  have hoff : root.offset 0 (p ++ [j]) = some (o + Elem.footprints (cs.take j)) := by
    rw [Elem.offset_append, he, ho']
    simp only [Option.bind_some]
    rw [Elem.offset_cons]
    simp only [Elem.children, hc, Option.bind_some]
    rfl
  refine ⟨p ++ [j], ?_, c, _, hat, hoff, ?_⟩
  · unfold Elem.childPositions
    rw [he]
    simp only [List.mem_map, List.mem_range]
    exact ⟨j, (List.getElem?_eq_some_iff.1 hc).1, rfl⟩
  · have hx : ∀ o, c.extent o = (8 * o, 8 * (o + c.footprint)) := by
      intro o
      have := hnb c (List.mem_of_getElem? hc)
      cases c with | mk n2 k2 s2 c2 =>
      cases k2 with
      | bit t => exact absurd rfl (this t)
      | _ => rfl
    rw [hx]
    simp only
    omega

/-! ## A parameter set in a configuration -/

/-- The bits of the parameter are the same in the area and in a board where the area is restored. -/
theorem area_alike {root : Elem} (wf : root.WF) {p q : Pos} {e f : Elem} {o base : Nat} (hqp : q <+: p)
    (hp : root.at? p = some e) (ho : root.offset 0 p = some o) (hq : root.at? q = some f)
    (hb : root.offset 0 q = some base) {a : Area} (ha : a.elem = q) (hl : a.board.length = f.areaSize)
    {b : Board} (hbl : b.length = root.footprint)
    (hv : ∀ i, root.Owns p i → b.bit i = a.value root i) :
    base ≤ o ∧ e.Alike a.board (o - base) b (o - 0) := by
  have hin := wf.area_inside hqp hq hp hb ho
  have hmain := wf.area_main hp ho
  refine ⟨hin.1, ⟨by omega, by omega, ?_⟩⟩
  intro k hk hk'
  have hx := wf.extent_area hp o
  have howns : root.Owns p (8 * o + k) := (Elem.owns_iff hp ho _).2 (by omega)
  rw [show o - 0 = o by omega, hv _ howns, Area.value_of (o := base) (by rw [ha]; exact hb)]
  congr 1
  omega

end PF
