import Verif.Model.DomainHistory
import Verif.Lemmas.DomainApply
import Verif.Lemmas.HandleSet
import Verif.Props.Tree

/-! # The invariant of the states a history of operations can reach -/

namespace PF
open Spec

/-- What every operation keeps. -/
structure St.Inv (root : Elem) (st : St) : Prop where
  main : st.mem.main.length = root.footprint
  good : ∀ d ∈ st.domains, d.Good root
  ids : (st.domains.map Domain.id).Nodup
  fresh : ∀ d ∈ st.domains, d.id < st.nextId ∧ ∀ c ∈ d.configs, c.id < st.nextId
  att : ∀ p i, (p, i) ∈ st.attached ↔ ∃ d ∈ st.domains, d.id = i ∧ p ∈ d.elems
  rules : ∀ d ∈ st.domains, RulesOK st.criteria d.configs

theorem St.Inv.initial (root : Elem) (cs : List Criterion) : (St.initial root cs).Inv root where
  main := by simp [St.initial, Elem.mainBoard]
  good := by simp [St.initial]
  ids := by simp [St.initial]
  fresh := by simp [St.initial]
  att := by simp [St.initial]
  rules := by simp [St.initial]

theorem St.findDomain_mem {st : St} {name : Str} {d : Domain} (h : st.findDomain name = some d) :
    d ∈ st.domains ∧ d.pathName = name := by
  refine ⟨List.mem_of_find?_eq_some h, ?_⟩
  have := List.find?_some h
  simpa using this

theorem nodup_map_inj {α β : Type} {f : α → β} {l : List α} (h : (l.map f).Nodup) {a b : α} (ha : a ∈ l) (hb : b ∈ l)
    (hab : f a = f b) : a = b := by
  induction l with
  | nil => simp at ha
  | cons x xs ih =>
    rw [List.map_cons, List.nodup_cons] at h
    rcases List.mem_cons.1 ha with h1 | h1 <;> rcases List.mem_cons.1 hb with h2 | h2
    · rw [h1, h2]
    · exact absurd (List.mem_map.2 ⟨b, h2, by rw [← hab, h1]⟩) h.1
    · exact absurd (List.mem_map.2 ⟨a, h1, by rw [hab, h2]⟩) h.1
    · exact ih h.2 h1 h2

theorem St.mem_setDomain {st : St} {d d' x : Domain} (hd : d ∈ st.domains) (hid : d'.id = d.id) :
    x ∈ (st.setDomain d').domains ↔ x = d' ∨ (x ∈ st.domains ∧ x.id ≠ d.id) := by
  simp only [St.setDomain, List.mem_map]
  constructor
  · rintro ⟨y, hy, rfl⟩
    by_cases h : y.id = d'.id
    · simp [h]
    · rw [if_neg h]
      exact .inr ⟨hy, by rw [← hid]; exact h⟩
  · rintro (rfl | ⟨h1, h2⟩)
    · exact ⟨d, hd, by simp [hid]⟩
    · exact ⟨x, h1, by rw [if_neg (by rw [hid]; exact h2)]⟩

theorem St.setDomain_ids {st : St} {d' : Domain} :
    (st.setDomain d').domains.map Domain.id = st.domains.map Domain.id := by
  simp only [St.setDomain, List.map_map]
  apply List.map_congr_left
  intro x _
  show (if x.id = d'.id then d' else x).id = x.id
  split
  · rename_i h; exact h.symm
  · rfl

/-- Replacing one domain by a consistent one. -/
theorem St.Inv.replace {root : Elem} {st : St} (h : st.Inv root) {d d' : Domain} (hd : d ∈ st.domains)
    (hid : d'.id = d.id) (hg : d'.Good root) (hr : RulesOK st.criteria d'.configs) {att : Attached} {n : Nat}
    (hn : st.nextId ≤ n) (hf : ∀ c ∈ d'.configs, c.id < n)
    (ha : ∀ p i, (p, i) ∈ att ↔ if i = d.id then p ∈ d'.elems else (p, i) ∈ st.attached)
    {m : Mem} (hm : m.main.length = root.footprint) :
    St.Inv root { st.setDomain d' with attached := att, nextId := n, mem := m } where
  main := hm
  good := by
    intro x hx
    rcases (St.mem_setDomain hd hid).1 hx with rfl | ⟨hx, _⟩
    · exact hg
    · exact h.good x hx
  ids := by
    show ((st.setDomain d').domains.map Domain.id).Nodup
    rw [St.setDomain_ids]; exact h.ids
  fresh := by
    intro x hx
    rcases (St.mem_setDomain hd hid).1 hx with rfl | ⟨hx, _⟩
    · refine ⟨?_, hf⟩
      rw [hid]; exact Nat.lt_of_lt_of_le (h.fresh d hd).1 hn
    · exact ⟨Nat.lt_of_lt_of_le (h.fresh x hx).1 hn, fun c hc => Nat.lt_of_lt_of_le ((h.fresh x hx).2 c hc) hn⟩
  att := by
    intro p i
    show (p, i) ∈ att ↔ ∃ x ∈ (st.setDomain d').domains, x.id = i ∧ p ∈ x.elems
    rw [ha]
    split
    · rename_i hi
      subst hi
      constructor
      · intro hp; exact ⟨d', (St.mem_setDomain hd hid).2 (.inl rfl), hid, hp⟩
      · rintro ⟨x, hx, hxi, hp⟩
        rcases (St.mem_setDomain hd hid).1 hx with rfl | ⟨_, hne⟩
        · exact hp
        · exact absurd hxi hne
    · rename_i hi
      rw [h.att]
      constructor
      · rintro ⟨x, hx, rfl, hp⟩
        exact ⟨x, (St.mem_setDomain hd hid).2 (.inr ⟨hx, hi⟩), rfl, hp⟩
      · rintro ⟨x, hx, hxi, hp⟩
        rcases (St.mem_setDomain hd hid).1 hx with rfl | ⟨hx, _⟩
        · exact absurd (hxi.symm.trans hid) hi
        · exact ⟨x, hx, hxi, hp⟩
  rules := by
    intro x hx
    rcases (St.mem_setDomain hd hid).1 hx with rfl | ⟨hx, _⟩
    · exact hr
    · exact h.rules x hx

/-- The same, with the associations untouched. -/
theorem St.Inv.replace' {root : Elem} {st : St} (h : st.Inv root) {d d' : Domain} (hd : d ∈ st.domains)
    (hid : d'.id = d.id) (hg : d'.Good root) (hr : RulesOK st.criteria d'.configs) (he : d'.elems = d.elems)
    {n : Nat} (hn : st.nextId ≤ n) (hf : ∀ c ∈ d'.configs, c.id < n) {m : Mem} (hm : m.main.length = root.footprint) :
    St.Inv root { st.setDomain d' with nextId := n, mem := m } := by
  refine h.replace hd hid hg hr (att := st.attached) hn hf ?_ hm
  intro p i
  split
  · rename_i hi
    subst hi
    rw [h.att, he]
    constructor
    · rintro ⟨x, hx, hxi, hp⟩
      rw [← nodup_map_inj h.ids hx hd hxi]; exact hp
    · intro hp; exact ⟨d, hd, rfl, hp⟩
  · rfl

/-! ## Paths -/

theorem Elem.locate_at {root : Elem} {path : Str} {p : Pos} (h : root.locate path = some p) : ∃ e, root.at? p = some e := by
  unfold Elem.locate at h
  split at h
  · simp at h
  · split at h
    · simp at h
    · split at h
      · simp at h
      · obtain ⟨f, hf, _⟩ := Elem.findDescendant_iff _ _ _ h
        exact ⟨f, hf⟩

theorem walk_prefix {e : Elem} {ns : List Str} {p p' : Pos} {items : List Str} (h : e.findDescendant ns = some p)
    (h' : e.accessWalk ns = some (p', items)) : p' <+: p ∧ (p' = p → items = []) := by
  induction ns generalizing e p p' with
  | nil =>
    simp only [Elem.findDescendant, Option.some.injEq] at h
    unfold Elem.accessWalk at h'
    split at h'
    · simp only [Option.some.injEq, Prod.mk.injEq] at h'
      obtain ⟨rfl, rfl⟩ := h'
      exact ⟨by simp, by simp⟩
    · simp at h'
  | cons n ns ih =>
    unfold Elem.findDescendant at h
    unfold Elem.accessWalk at h'
    split at h
    · simp at h
    · rename_i i hi
      split at h
      · simp at h
      · rename_i c hc
        obtain ⟨q, hq, rfl⟩ := Option.map_eq_some_iff.1 h
        split at h'
        · simp only [Option.some.injEq, Prod.mk.injEq] at h'
          obtain ⟨rfl, rfl⟩ := h'
          exact ⟨by simp, by simp⟩
        · rw [hi] at h'
          simp only [hc] at h'
          obtain ⟨r, hr, hre⟩ := Option.map_eq_some_iff.1 h'
          simp only [Prod.mk.injEq] at hre
          obtain ⟨rfl, rfl⟩ := hre
          obtain ⟨k1, k2⟩ := ih hq (p' := r.1) (by rw [hr])
          exact ⟨by simpa using k1, fun he => k2 (by simpa using he)⟩

/-- A path that designates an element and can be accessed designates a parameter. -/
theorem Elem.WF.access_locate {root : Elem} (wf : root.WF) {path : Str} {p p' : Pos} {items : List Str}
    (h : root.locate path = some p) (h' : root.accessTarget path = some (p', items)) : p' = p ∧ items = [] := by
  obtain ⟨e, he⟩ := Elem.locate_at h
  obtain ⟨f, hf, hpar⟩ := Elem.accessTarget_at h'
  have key : p' <+: p ∧ (p' = p → items = []) := by
    unfold Elem.locate at h
    unfold Elem.accessTarget at h'
    split at h
    · simp at h
    · rename_i hh
      rw [if_neg hh] at h'
      cases ht : tokenize ['/'] true path with
      | nil => simp [ht] at h
      | cons n ns =>
        simp only [ht] at h h'
        split at h
        · simp at h
        · rename_i hn
          rw [if_neg hn] at h'
          exact walk_prefix h h'
  have := wf.param_leaf hf hpar he key.1
  exact ⟨this, key.2 this⟩

theorem Elem.offset_le {root e f : Elem} (wf : root.WF) {p q : Pos} (hpq : p <+: q) (hp : root.at? p = some e)
    (hq : root.at? q = some f) {o u : Nat} (ho : root.offset 0 p = some o) (hu : root.offset 0 q = some u) : o ≤ u := by
  obtain ⟨r, rfl⟩ := hpq
  rw [Elem.at?_append, hp, Option.bind_some] at hq
  rw [Elem.offset_append, ho, hp] at hu
  simp only [Option.bind_some] at hu
  rcases wf.at hp with hw | ⟨_, _, _, _, _, _, _, _, _, _, _, rfl, _⟩
  · obtain ⟨v, hv⟩ := Elem.offset_of_at (off := 0) hq
    have := Elem.offset_shift (off := o) hv
    rw [this] at hu
    simp only [Option.some.injEq] at hu
    omega
  · cases r with
    | nil => simp only [Elem.offset, Option.some.injEq] at hu; omega
    | cons => simp [Elem.at?] at hq

/-- Setting a text keeps the size of the memory. -/
theorem setText_length {root : Elem} (wf : root.WF) (rd : Reader) (ctx : Ctx) {q : Pos} {eq : Elem}
    (hq : root.at? q = some eq) {base : Nat} (hb : root.offset 0 q = some base) (b : Board) (path text : Str)
    (hloc : ∀ p items, root.accessTarget path = some (p, items) → q <+: p) :
    (Elem.setText rd ctx root base b path text).2.length = b.length := by
  unfold Elem.setText
  split
  · rfl
  · rename_i p items ht
    obtain ⟨f, hf, _⟩ := Elem.accessTarget_at ht
    obtain ⟨o, ho⟩ := Elem.offset_of_at (off := 0) hf
    simp only [hf, ho]
    exact (setParamText_frame (fun t hk => (wf.bit_wf hf t hk).1) (Elem.offset_le wf (hloc p items ht) hq hf hb ho)).1

theorem Env.syncParam_main (env : Env) (autoSync : Bool) (p : Pos) (m : Mem) :
    (env.syncParam autoSync p m).2.main = m.main := by
  unfold Env.syncParam
  split
  · rfl
  · split <;> rfl

theorem Env.setMain_board (env : Env) (ctx : Ctx) (autoSync : Bool) (path text : Str) (m : Mem) :
    (env.setMain ctx autoSync path text m).2.main = (Elem.setText env.rd ctx env.root 0 m.main path text).2 := by
  unfold Env.setMain
  split
  · rename_i b p items h1 h2
    rw [Env.syncParam_main, h1]
  · rename_i o b x h1 h2
    rw [h1]

theorem Env.setMain_length (env : Env) (wf : env.root.WF) (ctx : Ctx) (autoSync : Bool) (path text : Str) (m : Mem) :
    (env.setMain ctx autoSync path text m).2.main.length = m.main.length := by
  rw [Env.setMain_board]
  exact setText_length (q := []) (eq := env.root) wf env.rd ctx (by cases env.root; rfl) (by simp [Elem.offset]) _ _ _
    (fun _ _ _ => by simp)

theorem Env.setMainVal_board (env : Env) {p : Pos} {e : Elem} {off : Nat} (he : env.root.at? p = some e)
    (ho : env.root.offset 0 p = some off) (v : HVal) (m : Mem) :
    (env.setMainVal p v m).2.main = (setParamVal env.rd e.kind m.main off v).2 := by
  unfold Env.setMainVal
  rw [he, ho]
  dsimp only
  split
  · rename_i h1; rw [Env.syncParam_main, h1]
  · rename_i h1; rw [h1]

theorem Env.setMainVal_none (env : Env) {p : Pos} (he : env.root.at? p = none) (v : HVal) (m : Mem) :
    env.setMainVal p v m = (.err, m) := by
  unfold Env.setMainVal
  rw [he]

theorem Env.setMainVal_length (env : Env) (wf : env.root.WF) (p : Pos) (v : HVal) (m : Mem) :
    (env.setMainVal p v m).2.main.length = m.main.length := by
  cases he : env.root.at? p with
  | none => rw [Env.setMainVal_none env he]
  | some e =>
    obtain ⟨off, ho⟩ := Elem.offset_of_at (off := 0) he
    rw [Env.setMainVal_board env he ho]
    exact (setParamVal_frame v (fun t hk => (wf.bit_wf he t hk).1)).1

theorem Env.setMainBytes_length (env : Env) (autoSync : Bool) (p : Pos) (bs : List Byte) (m : Mem) :
    (env.setMainBytes autoSync p bs m).2.main.length = m.main.length := by
  unfold Env.setMainBytes
  split
  · rfl
  · rfl
  · rename_i b hb
    have : b.length = m.main.length := by
      unfold Elem.setBytes at hb
      split at hb
      · split at hb
        · simp at hb
        · split at hb
          · rename_i hw
            simp only [Out.ok.injEq] at hb
            subst hb
            exact (Board.write_length hw).1
          · simp at hb
      · simp at hb
    split <;> exact this

/-! ## Every operation keeps the invariant -/

theorem St.Inv.withMain {root : Elem} {st : St} (h : st.Inv root) {m : Mem} (hm : m.main.length = root.footprint) :
    St.Inv root { st with mem := m } := ⟨hm, h.good, h.ids, h.fresh, h.att, h.rules⟩

theorem RulesOK.same {cs : List Criterion} {l : List Config} (h : RulesOK cs l) {g : Config → Config}
    (hg : ∀ c ∈ l, c.Same (g c)) : RulesOK cs (l.map g) := by
  intro c hc r hr
  obtain ⟨c0, hc0, rfl⟩ := List.mem_map.1 hc
  exact h c0 hc0 r (by rw [← (hg c0 hc0).2.2]; exact hr)

theorem RulesOK.set {cs : List Criterion} {d : Domain} (h : RulesOK cs d.configs) {c c' : Config} (hc : c ∈ d.configs)
    (hid : c'.id = c.id) (hr : ∀ r, c'.rule = some r → RuleOK cs r) : RulesOK cs (d.setConfig c').configs := by
  intro x hx
  rcases (Domain.mem_setConfig hc hid).1 hx with rfl | ⟨hx, _⟩
  · exact hr
  · exact h x hx

theorem fresh_same {l : List Config} {n : Nat} (h : ∀ c ∈ l, c.id < n) {g : Config → Config}
    (hg : ∀ c ∈ l, c.Same (g c)) : ∀ c ∈ l.map g, c.id < n := by
  intro c hc
  obtain ⟨c0, hc0, rfl⟩ := List.mem_map.1 hc
  rw [(hg c0 hc0).1]; exact h c0 hc0

theorem fresh_set {d : Domain} {n : Nat} (h : ∀ c ∈ d.configs, c.id < n) {c c' : Config} (hc : c ∈ d.configs)
    (hid : c'.id = c.id) : ∀ x ∈ (d.setConfig c').configs, x.id < n := by
  intro x hx
  rcases (Domain.mem_setConfig hc hid).1 hx with rfl | ⟨hx, _⟩
  · rw [hid]; exact h c hc
  · exact h x hx

/-- Replacing one configuration of one domain. -/
theorem St.Inv.setConfig {root : Elem} {st : St} (h : st.Inv root) {d : Domain} (hd : d ∈ st.domains) {c c' : Config}
    (hc : c ∈ d.configs) (hid : c'.id = c.id) (hok : c'.OK root d.elems) (hv : ∀ a ∈ c'.areas, a.valid = true)
    (hr : ∀ r, c'.rule = some r → RuleOK st.criteria r) {m : Mem} (hm : m.main.length = root.footprint) :
    St.Inv root { st.setDomain (d.setConfig c') with mem := m } :=
  h.replace' (d' := d.setConfig c') hd rfl (Domain.setConfig_good (h.good d hd) hc hid hok hv) ((h.rules d hd).set hc hid hr) rfl
    (Nat.le_refl _) (fresh_set (h.fresh d hd).2 hc hid) hm

theorem St.Inv.elems_of {root : Elem} {st : St} (h : st.Inv root) {d : Domain} (hd : d ∈ st.domains) (p : Pos) :
    (p, d.id) ∈ st.attached ↔ p ∈ d.elems := by
  rw [h.att]
  constructor
  · rintro ⟨x, hx, hxi, hp⟩
    rw [← nodup_map_inj h.ids hx hd hxi]; exact hp
  · intro hp; exact ⟨d, hd, rfl, hp⟩

theorem St.Inv.createDomain {root : Elem} {st : St} (h : st.Inv root) (name : Str) : (st.createDomain name).2.Inv root := by
  unfold St.createDomain
  split
  · exact h
  · refine ⟨h.main, ?_, ?_, ?_, ?_, ?_⟩
    · intro d hd
      rcases List.mem_append.1 hd with hd | hd
      · exact h.good d hd
      · simp only [List.mem_cons, List.not_mem_nil, or_false] at hd; subst hd; exact Domain.new_good ..
    · show ((st.domains ++ [Domain.new st.nextId name]).map Domain.id).Nodup
      rw [List.map_append, List.nodup_append]
      refine ⟨h.ids, by simp, ?_⟩
      intro a ha b hb
      obtain ⟨d, hd, rfl⟩ := List.mem_map.1 ha
      simp only [List.map_cons, List.map_nil, List.mem_cons, List.not_mem_nil, or_false, Domain.new] at hb
      have := (h.fresh d hd).1
      omega
    · intro d hd
      rcases List.mem_append.1 hd with hd | hd
      · exact ⟨Nat.lt_succ_of_lt (h.fresh d hd).1, fun c hc => Nat.lt_succ_of_lt ((h.fresh d hd).2 c hc)⟩
      · simp only [List.mem_cons, List.not_mem_nil, or_false] at hd; subst hd
        exact ⟨Nat.lt_succ_self _, by simp [Domain.new]⟩
    · intro p i
      rw [h.att]
      constructor
      · rintro ⟨d, hd, x⟩; exact ⟨d, List.mem_append_left _ hd, x⟩
      · rintro ⟨d, hd, x, y⟩
        rcases List.mem_append.1 hd with hd | hd
        · exact ⟨d, hd, x, y⟩
        · simp only [List.mem_cons, List.not_mem_nil, or_false] at hd; subst hd; simp [Domain.new] at y
    · intro d hd
      rcases List.mem_append.1 hd with hd | hd
      · exact h.rules d hd
      · simp only [List.mem_cons, List.not_mem_nil, or_false] at hd; subst hd
        intro c hc; simp [Domain.new] at hc

theorem St.Inv.deleteDomain {root : Elem} {st : St} (h : st.Inv root) (name : Str) : (st.deleteDomain name).2.Inv root := by
  unfold St.deleteDomain
  split
  · exact h
  · rename_i d hd
    have hdm := (St.findDomain_mem hd).1
    refine ⟨h.main, fun x hx => h.good x (List.mem_filter.1 hx).1, h.ids.sublist (List.filter_sublist.map _),
      fun x hx => h.fresh x (List.mem_filter.1 hx).1, ?_, fun x hx => h.rules x (List.mem_filter.1 hx).1⟩
    intro p i
    show (p, i) ∈ st.attached.filter (fun x => !(x.2 == d.id && d.elems.contains x.1)) ↔ _
    rw [List.mem_filter]
    constructor
    · rintro ⟨h1, h2⟩
      obtain ⟨x, hx, hxi, hp⟩ := (h.att p i).1 h1
      refine ⟨x, List.mem_filter.2 ⟨hx, ?_⟩, hxi, hp⟩
      simp only [decide_eq_true_eq]
      intro he
      have := nodup_map_inj h.ids hx hdm he
      subst this
      subst hxi
      simp [hp] at h2
    · rintro ⟨x, hx, hxi, hp⟩
      obtain ⟨hx1, hx2⟩ := List.mem_filter.1 hx
      simp only [decide_eq_true_eq] at hx2
      refine ⟨(h.att p i).2 ⟨x, hx1, hxi, hp⟩, ?_⟩
      have : i ≠ d.id := by rw [← hxi]; exact hx2
      simp [this]

theorem St.Inv.deleteAllDomains {root : Elem} {st : St} (h : st.Inv root) : st.deleteAllDomains.2.Inv root := by
  refine ⟨h.main, by simp [St.deleteAllDomains], by simp [St.deleteAllDomains], by simp [St.deleteAllDomains], ?_,
    by simp [St.deleteAllDomains]⟩
  intro p i
  simp only [St.deleteAllDomains, List.mem_filter, List.not_mem_nil, false_and, exists_false, iff_false, not_and]
  intro h1
  obtain ⟨x, hx, hxi, hp⟩ := (h.att p i).1 h1
  have : (st.domains.any fun d => i == d.id && d.elems.contains p) = true := by
    rw [List.any_eq_true]
    exact ⟨x, hx, by simp [hxi, hp]⟩
  simp only [Bool.not_eq_true']
  rw [this]; simp

theorem St.Inv.renameDomain {root : Elem} {st : St} (h : st.Inv root) (name new : Str) :
    (st.renameDomain name new).2.Inv root := by
  unfold St.renameDomain
  split
  · exact h
  · rename_i d hd
    have hdm := (St.findDomain_mem hd).1
    split
    · exact h
    · have g := h.good d hdm
      exact h.replace' (d' := { d with name := new }) (m := st.mem) hdm rfl
        ⟨⟨g.at_, g.nodup, g.ok, g.ids, g.last, g.keys, g.covers, g.sorted⟩, g.antichain, g.valid⟩
        (h.rules d hdm) rfl (Nat.le_refl _) (h.fresh d hdm).2 h.main

/-- Operations on one domain. -/
theorem St.Inv.onDomain {root : Elem} {st : St} (h : st.Inv root) (name : Str) (f : Domain → Out (Domain × Attached))
    (hf : ∀ d ∈ st.domains, ∀ d' att, f d = .ok (d', att) →
      d'.id = d.id ∧ d'.Good root ∧ RulesOK st.criteria d'.configs ∧ (∀ c ∈ d'.configs, c.id < st.nextId) ∧
      ∀ p i, (p, i) ∈ att ↔ if i = d.id then p ∈ d'.elems else (p, i) ∈ st.attached) :
    (st.onDomain name f).2.Inv root := by
  unfold St.onDomain
  split
  · exact h
  · rename_i d hd
    have hdm := (St.findDomain_mem hd).1
    split
    · rename_i d' att hk
      obtain ⟨h1, h2, h3, h4, h5⟩ := hf d hdm d' att hk
      exact h.replace (m := st.mem) hdm h1 h2 h3 (Nat.le_refl _) h4 h5 h.main
    · exact h
    · exact h

theorem St.Inv.att_same {root : Elem} {st : St} (h : st.Inv root) {d d' : Domain} (hd : d ∈ st.domains)
    (he : d'.elems = d.elems) (p : Pos) (i : Nat) :
    (p, i) ∈ st.attached ↔ if i = d.id then p ∈ d'.elems else (p, i) ∈ st.attached := by
  split
  · rename_i hi; subst hi; rw [h.elems_of hd, he]
  · rfl

theorem St.Inv.setSequenceAwareness {root : Elem} {st : St} (h : st.Inv root) (name : Str) (aware : Bool) :
    (st.setSequenceAwareness name aware).2.Inv root := by
  refine h.onDomain name _ ?_
  intro d hd d' att hk
  simp only [Out.ok.injEq, Prod.mk.injEq] at hk
  obtain ⟨rfl, rfl⟩ := hk
  have g := h.good d hd
  exact ⟨rfl, ⟨⟨g.at_, g.nodup, g.ok, g.ids, g.last, g.keys, g.covers, g.sorted⟩, g.antichain, g.valid⟩, h.rules d hd,
    (h.fresh d hd).2, h.att_same hd rfl⟩

theorem St.Inv.createConfiguration {root : Elem} (wf : root.WF) {st : St} (h : st.Inv root) (dom name : Str) :
    (st.createConfiguration root dom name).2.Inv root := by
  unfold St.createConfiguration
  split
  · exact h
  · rename_i d hd
    have hdm := (St.findDomain_mem hd).1
    split
    · rename_i d' hk
      have hfind : d.findConfig name = none := by
        unfold Domain.createConfig at hk
        split at hk
        · simp at hk
        · assumption
      obtain ⟨c, h1, h2, h3, h4, h5, _⟩ := Domain.createConfig_spec wf (h.good d hdm) h.main (id := st.nextId) (by
        intro hm
        obtain ⟨c, hc, he⟩ := List.mem_map.1 hm
        have := (h.fresh d hdm).2 c hc
        omega) hfind
      rw [h1] at hk
      simp only [Out.ok.injEq] at hk
      subst hk
      refine h.replace' (d' := { d with configs := d.configs ++ [c] }) (m := st.mem) (n := st.nextId + 1) hdm rfl h2 ?_ rfl (Nat.le_succ _) ?_ h.main
      · intro x hx r hr
        rcases List.mem_append.1 hx with hx | hx
        · exact h.rules d hdm x hx r hr
        · simp only [List.mem_cons, List.not_mem_nil, or_false] at hx; subst hx; rw [h5] at hr; simp at hr
      · intro x hx
        rcases List.mem_append.1 hx with hx | hx
        · exact Nat.lt_succ_of_lt ((h.fresh d hdm).2 x hx)
        · simp only [List.mem_cons, List.not_mem_nil, or_false] at hx; subst hx; omega
    · exact h
    · exact h

theorem St.Inv.deleteConfiguration {root : Elem} {st : St} (h : st.Inv root) (dom name : Str) :
    (st.deleteConfiguration dom name).2.Inv root := by
  refine h.onDomain dom _ ?_
  intro d hd d' att hk
  cases hc : d.deleteConfig name with
  | err => rw [hc] at hk; simp [Out.bind] at hk
  | abort => rw [hc] at hk; simp [Out.bind] at hk
  | ok d1 =>
    rw [hc] at hk
    simp only [Out.bind, Out.ok.injEq, Prod.mk.injEq] at hk
    obtain ⟨rfl, rfl⟩ := hk
    have hg := Domain.deleteConfig_good (h.good d hd) hc
    unfold Domain.deleteConfig at hc
    split at hc
    · simp at hc
    · simp only [Out.ok.injEq] at hc
      subst hc
      exact ⟨rfl, hg, fun c hc => h.rules d hd c (List.mem_filter.1 hc).1,
        fun c hc => (h.fresh d hd).2 c (List.mem_filter.1 hc).1, h.att_same hd rfl⟩

theorem St.Inv.renameConfiguration {root : Elem} {st : St} (h : st.Inv root) (dom name new : Str) :
    (st.renameConfiguration dom name new).2.Inv root := by
  refine h.onDomain dom _ ?_
  intro d hd d' att hk
  cases hc : d.renameConfig name new with
  | err => rw [hc] at hk; simp [Out.bind] at hk
  | abort => rw [hc] at hk; simp [Out.bind] at hk
  | ok d1 =>
    rw [hc] at hk
    simp only [Out.bind, Out.ok.injEq, Prod.mk.injEq] at hk
    obtain ⟨rfl, rfl⟩ := hk
    obtain ⟨hg, c, hf, rfl, _⟩ := Domain.renameConfig_good (h.good d hd) hc
    have hcm := (Domain.findConfig_mem hf).1
    exact ⟨rfl, hg, (h.rules d hd).set (c' := { c with name := new }) hcm rfl (h.rules d hd c hcm),
      fresh_set (c' := { c with name := new }) (h.fresh d hd).2 hcm rfl, h.att_same hd rfl⟩

theorem St.Inv.saveConfiguration {root : Elem} (wf : root.WF) {st : St} (h : st.Inv root) (dom name : Str) :
    (st.saveConfiguration root dom name).2.Inv root := by
  refine h.onDomain dom _ ?_
  intro d hd d' att hk
  cases hf : d.findConfig name with
  | none => simp [Domain.saveConfig, hf, Out.bind] at hk
  | some c =>
    have hcm := (Domain.findConfig_mem hf).1
    obtain ⟨c', h1, h2, h3, _⟩ := Domain.saveConfig_spec wf (h.good d hd) h.main hf
    rw [h1] at hk
    simp only [Out.bind, Out.ok.injEq, Prod.mk.injEq] at hk
    obtain ⟨rfl, rfl⟩ := hk
    exact ⟨rfl, h2, (h.rules d hd).set hcm h3.1 (by rw [h3.2.2]; exact h.rules d hd c hcm),
      fresh_set (h.fresh d hd).2 hcm h3.1, h.att_same hd rfl⟩

theorem St.Inv.belongs {root : Elem} {st : St} (h : st.Inv root) {d : Domain} (hd : d ∈ st.domains) (p : Pos) :
    st.attached.belongsTo p d.id = true ↔ ∃ q ∈ d.elems, q <+: p := by
  unfold Attached.belongsTo
  rw [List.any_eq_true]
  constructor
  · rintro ⟨⟨q, i⟩, hx, hy⟩
    simp only [Bool.and_eq_true, beq_iff_eq, decide_eq_true_eq] at hy
    obtain ⟨rfl, hy⟩ := hy
    exact ⟨q, (h.elems_of hd q).1 hx, hy⟩
  · rintro ⟨q, hq, hy⟩
    exact ⟨(q, d.id), (h.elems_of hd q).2 hq, by simp [hy]⟩

theorem St.Inv.addElement {root : Elem} (wf : root.WF) {st : St} (h : st.Inv root) (dom : Str) {p : Pos} {e : Elem}
    (he : root.at? p = some e) : (st.addElement root dom p).2.Inv root := by
  refine h.onDomain dom _ ?_
  intro d hd d' att hk
  unfold Domain.addElem at hk
  split at hk
  · simp at hk
  · rename_i hp
    split at hk
    · simp at hk
    · rename_i hb
      have hanc : ∀ q ∈ d.elems, ¬ q <+: p := by
        intro q hq hqp
        exact hb ((h.belongs hd p).2 ⟨q, hq, hqp⟩)
      obtain ⟨d1, att1, h1, h2, h3, h4, h5, g, h6, h7⟩ := Domain.addElem_good wf (h.good d hd) (att := st.attached) hp hanc he h.main
      rw [h1] at hk
      simp only [Out.ok.injEq, Prod.mk.injEq] at hk
      obtain ⟨rfl, rfl⟩ := hk
      refine ⟨h4.id, h2, ?_, ?_, ?_⟩
      · rw [h6]; exact (h.rules d hd).same (fun c hc => (h7 c hc).1)
      · rw [h6]; exact fresh_same (h.fresh d hd).2 (fun c hc => (h7 c hc).1)
      · intro q i
        rw [h5, h3]
        simp only [List.mem_filter, List.mem_append, List.mem_cons, List.not_mem_nil, or_false, Prod.mk.injEq,
          decide_eq_true_eq]
        split
        · rename_i hi
          subst hi
          rw [h.elems_of hd]
          constructor
          · rintro ⟨hq | hq, hn⟩
            · left; exact ⟨hq, fun hd => hn ⟨rfl, hq, hd⟩⟩
            · exact .inr hq.1
          · rintro (⟨hq, hn⟩ | rfl)
            · exact ⟨.inl hq, fun hx => hn hx.2.2⟩
            · exact ⟨.inr ⟨rfl, rfl⟩, fun hx => hp hx.2.1⟩
        · rename_i hi
          constructor
          · rintro ⟨hq | hq, _⟩
            · exact hq
            · exact absurd hq.2 hi
          · intro hq; exact ⟨.inl hq, fun hx => hi hx.1⟩

theorem St.Inv.removeElement {root : Elem} {st : St} (h : st.Inv root) (dom : Str) (p : Pos) :
    (st.removeElement dom p).2.Inv root := by
  refine h.onDomain dom _ ?_
  intro d hd d' att hk
  by_cases hp : p ∈ d.elems
  · obtain ⟨d1, h1, h2, h3, h4, g, h5, h6⟩ := Domain.removeElem_good (h.good d hd) (att := st.attached) hp
    rw [h1] at hk
    simp only [Out.ok.injEq, Prod.mk.injEq] at hk
    obtain ⟨rfl, rfl⟩ := hk
    refine ⟨h4.id, h2, ?_, ?_, ?_⟩
    · rw [h5]; exact (h.rules d hd).same (fun c hc => (h6 c hc).1)
    · rw [h5]; exact fresh_same (h.fresh d hd).2 (fun c hc => (h6 c hc).1)
    · intro q i
      rw [h3]
      simp only [List.mem_filter, decide_eq_true_eq, ne_eq, Prod.mk.injEq, not_and]
      split
      · rename_i hi
        subst hi
        rw [h.elems_of hd]
        simp
      · rename_i hi
        exact ⟨fun hx => hx.1, fun hx => ⟨hx, fun _ => hi⟩⟩
  · simp [Domain.removeElem, hp] at hk

theorem St.Inv.split {root : Elem} (wf : root.WF) {st : St} (h : st.Inv root) (dom : Str) (p : Pos) :
    (st.split root dom p).2.Inv root := by
  unfold St.split
  split
  · exact h
  · rename_i d hd
    have hdm := (St.findDomain_mem hd).1
    split
    · rename_i d' att hk
      have hp : p ∈ d.elems := by
        apply Classical.byContradiction
        intro hp; simp [Domain.split, hp] at hk
      have hne : root.childPositions p ≠ [] := by
        intro hne; simp [Domain.split, hp, hne] at hk
      obtain ⟨d1, h1, h2, h3, h4, g, h5, h6⟩ := Domain.split_good wf (h.good d hdm) (att := st.attached) hp hne
      rw [h1] at hk
      simp only [Out.ok.injEq, Prod.mk.injEq] at hk
      obtain ⟨rfl, rfl⟩ := hk
      refine h.replace (m := st.mem) hdm h4.id h2 ?_ (Nat.le_refl _) ?_ ?_ h.main
      · rw [h5]; exact (h.rules d hdm).same (fun c hc => (h6 c hc).1)
      · rw [h5]; exact fresh_same (h.fresh d hdm).2 (fun c hc => (h6 c hc).1)
      · intro q i
        rw [h3]
        simp only [List.mem_filter, List.mem_append, List.mem_map, Prod.mk.injEq, decide_eq_true_eq, ne_eq, not_and]
        split
        · rename_i hi
          subst hi
          rw [h.elems_of hdm]
          constructor
          · rintro ⟨hq | ⟨x, hx, rfl, _⟩, hn⟩
            · exact ⟨.inl hq, fun he => hn he rfl⟩
            · exact ⟨.inr hx, fun he => hn he rfl⟩
          · rintro ⟨hq | hq, hn⟩
            · exact ⟨.inl hq, fun he => absurd he hn⟩
            · exact ⟨.inr ⟨q, hq, rfl, rfl⟩, fun he => absurd he hn⟩
        · rename_i hi
          constructor
          · rintro ⟨hq | ⟨x, hx, _, hxi⟩, _⟩
            · exact hq
            · exact absurd hxi.symm hi
          · intro hq; exact ⟨.inl hq, fun _ => hi⟩
    · exact h
    · exact h

theorem Domain.restoreConfig_good {root : Elem} (wf : root.WF) {d : Domain} (h : d.Good root) (hw : Hardware)
    (autoSync : Bool) {m : Mem} (hm : m.main.length = root.footprint) {name : Str} {d' : Domain} {m' : Mem} {errs : List Str}
    (hk : d.restoreConfig root hw autoSync name m = .ok (d', m', errs)) :
    ∃ c, d.findConfig name = some c ∧ d' = { d with last := some c.id } ∧ m'.main.length = root.footprint := by
  unfold Domain.restoreConfig at hk
  split at hk
  · simp at hk
  · rename_i c hc
    obtain ⟨m1, e1, h1, h2⟩ := Domain.restore_total wf h hw (autoSync && d.seqAware) hm (Domain.findConfig_mem hc).1
    rw [h1] at hk
    simp only at hk
    split at hk
    · simp only [Out.ok.injEq, Prod.mk.injEq] at hk
      obtain ⟨rfl, rfl, _⟩ := hk
      exact ⟨c, hc, rfl, h2⟩
    · simp only [Out.ok.injEq, Prod.mk.injEq] at hk
      obtain ⟨rfl, rfl, _⟩ := hk
      exact ⟨c, hc, rfl, h2⟩

theorem St.Inv.restoreConfiguration {root : Elem} (wf : root.WF) {st : St} (h : st.Inv root) (hw : Hardware)
    (autoSync : Bool) (dom name : Str) : (st.restoreConfiguration root hw autoSync dom name).2.Inv root := by
  unfold St.restoreConfiguration
  split
  · exact h
  · rename_i d hd
    have hdm := (St.findDomain_mem hd).1
    split
    · rename_i d' m' errs hk
      obtain ⟨c, hc, rfl, hm⟩ := Domain.restoreConfig_good wf (h.good d hdm) hw autoSync h.main hk
      refine h.replace' (d' := { d with last := some c.id }) hdm rfl ((h.good d hdm).withLast ?_) (h.rules d hdm) rfl (Nat.le_refl _) (h.fresh d hdm).2 hm
      intro i hi
      simp only [Option.some.injEq] at hi
      exact List.mem_map.2 ⟨c, (Domain.findConfig_mem hc).1, hi⟩
    · exact h
    · exact h

theorem St.Inv.onConfig {root : Elem} {st : St} (h : st.Inv root) (dom name : Str) (f : Config → Out Unit × Config)
    (hf : ∀ d ∈ st.domains, ∀ c ∈ d.configs, (f c).2.id = c.id ∧ (f c).2.OK root d.elems ∧
      (∀ a ∈ (f c).2.areas, a.valid = true) ∧ ∀ r, (f c).2.rule = some r → RuleOK st.criteria r) :
    (st.onConfig dom name f).2.Inv root := by
  unfold St.onConfig
  split
  · exact h
  · rename_i d hd
    have hdm := (St.findDomain_mem hd).1
    split
    · exact h
    · rename_i c hc
      have hcm := (Domain.findConfig_mem hc).1
      obtain ⟨h1, h2, h3, h4⟩ := hf d hdm c hcm
      exact h.setConfig (m := st.mem) hdm hcm h1 h2 h3 h4 h.main

theorem St.Inv.setElementSequence {root : Elem} {st : St} (h : st.Inv root) (dom name : Str) (paths : List Str) :
    (st.setElementSequence root dom name paths).2.Inv root := by
  refine h.onConfig dom name _ ?_
  intro d hd c hc
  have hok := (h.good d hd).ok c hc
  have hperm := (sequenceLoop_spec (root := root) (paths := paths) (seen := []) (front := []) (back := c.areas)
    (by simpa using hok.nodup) rfl).1
  simp only [List.nil_append] at hperm
  exact ⟨rfl, (hok.perm (c' := (c.setSequence root paths).2) hperm).1,
    fun a ha => (h.good d hd).valid c hc a (hperm.mem_iff.1 ha), h.rules d hd c hc⟩

theorem St.Inv.setApplicationRule {root : Elem} {st : St} (h : st.Inv root) (dom name text : Str) :
    (st.setApplicationRule dom name text).2.Inv root := by
  refine h.onConfig dom name _ ?_
  intro d hd c hc
  have hok := (h.good d hd).ok c hc
  unfold Config.setRule
  split
  · rename_i r hr
    refine ⟨rfl, ⟨hok.nodup, hok.mem, hok.sized⟩, (h.good d hd).valid c hc, ?_⟩
    intro r' hr'
    simp only [Option.some.injEq] at hr'
    subst hr'
    exact ⟨C09_accepted_well_typed st.criteria text r hr, parseRule_compound hr⟩
  all_goals exact ⟨rfl, hok, (h.good d hd).valid c hc, h.rules d hd c hc⟩

theorem St.Inv.clearApplicationRule {root : Elem} {st : St} (h : st.Inv root) (dom name : Str) :
    (st.clearApplicationRule dom name).2.Inv root := by
  refine h.onConfig dom name _ ?_
  intro d hd c hc
  have hok := (h.good d hd).ok c hc
  exact ⟨rfl, ⟨hok.nodup, hok.mem, hok.sized⟩, (h.good d hd).valid c hc, by simp [Config.clearRule]⟩

/-- What `findBlackboard` finds. -/
theorem St.findBlackboard_spec {root : Elem} {dom conf path : Str} {st : St} {d : Domain} {c : Config} {q : Pos} {l : Bool}
    (h : st.findBlackboard root dom conf path = some (d, c, q, l)) :
    ∃ p, root.locate path = some p ∧ st.findDomain dom = some d ∧ d.findConfig conf = some c ∧ q ∈ d.elems ∧ q <+: p ∧
      l = decide (d.last = some c.id) := by
  unfold St.findBlackboard at h
  split at h
  · rename_i p d0 hp hd0
    split at h
    · simp at h
    · obtain ⟨r, hr, he⟩ := Option.map_eq_some_iff.1 h
      unfold Domain.findBlackboard at hr
      split at hr
      · simp at hr
      · rename_i c0 hc0
        split at hr
        · simp at hr
        · rename_i q0 hq0
          simp only [Option.some.injEq] at hr
          subst hr
          simp only [Prod.mk.injEq] at he
          obtain ⟨rfl, rfl, rfl, rfl⟩ := he
          have := List.find?_some hq0
          exact ⟨p, hp, hd0, hc0, List.mem_of_find?_eq_some hq0, by simpa using this, rfl⟩
  · simp at h

theorem St.Inv.setConfigParam {env : Env} (wf : env.root.WF) {st : St} (h : st.Inv env.root) (ctx : Ctx) (autoSync : Bool)
    (dom conf path text : Str) : (st.setConfigParam env ctx autoSync dom conf path text).2.Inv env.root := by
  unfold St.setConfigParam
  split
  · exact h
  · rename_i d c q isLast hb
    obtain ⟨p, hp, hd, hc, hq, hqp, _⟩ := St.findBlackboard_spec hb
    have hdm := (St.findDomain_mem hd).1
    have hcm := (Domain.findConfig_mem hc).1
    split
    · rename_i a base ha hbase
      have hg := h.good d hdm
      have hok := hg.ok c hcm
      obtain ⟨ham, rfl⟩ := hok.area_iff.1 ha
      obtain ⟨e, he, hl⟩ := hok.sized a ham
      have hlen := setText_length wf env.rd ctx he hbase a.board path text (by
        intro p' items ht
        rw [(wf.access_locate hp ht).1]; exact hqp)
      have hset := hok.set (p := a.elem) hq
        (a' := { a with board := (Elem.setText env.rd ctx env.root base a.board path text).2 }) rfl
        ⟨e, he, by rw [← hl]; exact hlen⟩
      have key : ∀ m : Mem, m.main.length = env.root.footprint →
          St.Inv env.root ({ (st.setDomain (d.setConfig ({ c with areas := (setArea a.elem
            ({ a with board := (Elem.setText env.rd ctx env.root base a.board path text).2 } : Area) c.areas) } : Config))) with
              mem := m } : St) := by
        intro m hm
        refine h.setConfig (m := m) (c' := ({ c with areas := (setArea a.elem
            ({ a with board := (Elem.setText env.rd ctx env.root base a.board path text).2 } : Area) c.areas) } : Config)) hdm hcm rfl hset.1 ?_ (h.rules d hdm c hcm) hm
        intro x hx
        rcases mem_setArea hx with rfl | hx
        · exact hg.valid c hcm a ham
        · exact hg.valid c hcm x hx
      dsimp only
      split
      · split
        · exact key _ (by rw [Env.setMain_length env wf, h.main])
        · exact key st.mem h.main
      · exact key st.mem h.main
    · exact h

theorem St.Inv.apply_eq {root : Elem} (wf : root.WF) {st : St} (h : st.Inv root) (hw : Hardware) (force : Bool) :
    ∃ b log, st.apply root hw force = (.ok (), { st with
        domains := st.domains.map (Domain.target st.criteria force), mem := ⟨b, log⟩,
        criteria := st.criteria.map Criterion.resetModified, asked := [] }) ∧ b.length = root.footprint := by
  obtain ⟨as, b1, ss, as', ev, b2, h1, h2, h3, h4, h5, h6, h7⟩ :=
    applyDomains_trace wf hw force h.good h.rules h.main (resyncSet_sorted root st.asked)
  refine ⟨b2, st.mem.log ++ ss.map (fun x => ⟨x, b1⟩) ++ ev, by simp only [St.apply, h1], ?_⟩
  rw [h7.written.length, h3.length, h.main]

theorem sameTypes_reset (cs : List Criterion) : SameTypes cs (cs.map Criterion.resetModified) := by
  intro i c hc
  exact ⟨c.resetModified, by simp [hc], rfl⟩

theorem St.Inv.apply {root : Elem} (wf : root.WF) {st : St} (h : st.Inv root) (hw : Hardware) (force : Bool) :
    (st.apply root hw force).2.Inv root := by
  obtain ⟨b, log, h1, h2⟩ := h.apply_eq wf hw force
  rw [h1]
  have hmap : (st.domains.map (Domain.target st.criteria force)).map Domain.id = st.domains.map Domain.id := by
    rw [List.map_map]; exact List.map_congr_left (fun _ _ => rfl)
  refine ⟨h2, ?_, ?_, ?_, ?_, ?_⟩
  · intro d hd
    obtain ⟨d0, hd0, rfl⟩ := List.mem_map.1 hd
    exact Domain.target_good (h.good d0 hd0)
  · show ((st.domains.map (Domain.target st.criteria force)).map Domain.id).Nodup
    rw [hmap]; exact h.ids
  · intro d hd
    obtain ⟨d0, hd0, rfl⟩ := List.mem_map.1 hd
    exact h.fresh d0 hd0
  · intro p i
    rw [h.att]
    constructor
    · rintro ⟨d, hd, x⟩; exact ⟨_, List.mem_map.2 ⟨d, hd, rfl⟩, x⟩
    · rintro ⟨d, hd, x⟩
      obtain ⟨d0, hd0, rfl⟩ := List.mem_map.1 hd
      exact ⟨d0, hd0, x⟩
  · intro d hd
    obtain ⟨d0, hd0, rfl⟩ := List.mem_map.1 hd
    intro c hc r hr
    exact (h.rules d0 hd0 c hc r hr).congr (sameTypes_reset _)

theorem St.Inv.setCriterion {root : Elem} {st : St} (h : st.Inv root) (i : Nat) (v : BitVec 32) :
    (st.setCriterion i v).2.Inv root := by
  refine ⟨h.main, h.good, h.ids, h.fresh, h.att, ?_⟩
  intro d hd c hc r hr
  refine (h.rules d hd c hc r hr).congr ?_
  intro j c hc
  refine ⟨if j = i then c.setState v else c, by simp [St.setCriterion, hc], ?_⟩
  split
  · unfold Criterion.setState; split <;> rfl
  · rfl

end PF
