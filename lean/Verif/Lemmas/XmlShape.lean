import Verif.Lemmas.DomainStep

/-! # Documents of the right shape do not stop the program -/

namespace PF
open Spec

theorem bind_safe {α β : Type} {x : Out α} {f : α → Out β} (hx : x ≠ .abort) (hf : ∀ a, x = .ok a → f a ≠ .abort) :
    x.bind f ≠ .abort := by
  cases x with
  | ok a => exact hf a rfl
  | err => simp [Out.bind]
  | abort => exact absurd rfl hx

theorem critFromXml_safe (cs : List Criterion) (x : Xml) : critFromXml cs x ≠ .abort := by
  unfold critFromXml
  split
  · simp
  · split
    · simp
    · split
      · split <;> simp
      · simp

mutual
theorem ruleFromXml_safe (cs : List Criterion) : (x : Xml) → RuleShape x → ruleFromXml cs x ≠ .abort
  | .mk tag attrs text ch, h => by
    simp only [ruleFromXml]
    split
    · rename_i ht
      refine bind_safe (rulesFromXml_safe cs ch ?_) (by simp)
      cases h with
      | compound _ h => exact h
      | crit h => exact absurd (ht.symm.trans h) (by decide)
    · split
      · exact critFromXml_safe _ _
      · rename_i h1 h2
        cases h with
        | compound h _ => exact absurd h h1
        | crit h => exact absurd h h2
theorem rulesFromXml_safe (cs : List Criterion) : (xs : List Xml) → (∀ y ∈ xs, RuleShape y) → rulesFromXml cs xs ≠ .abort
  | [], _ => by simp [rulesFromXml]
  | x :: xs, h => by
    simp only [rulesFromXml]
    refine bind_safe (ruleFromXml_safe cs x (h x (by simp))) fun r _ => ?_
    exact bind_safe (rulesFromXml_safe cs xs fun y hy => h y (by simp [hy])) (by simp)
end

theorem configFromXml_safe (cs : List Criterion) (n : Nat) (x : Xml) (h : ConfigShape x) :
    Config.fromXml cs n x ≠ .abort := by
  obtain ⟨_, h | ⟨y, hy, hc, hs⟩⟩ := h
  · simp [Config.fromXml, h, rulesFromXml, Out.bind]
  · unfold Config.fromXml
    rw [hy]
    refine bind_safe (rulesFromXml_safe cs [y] (by simpa using hs)) fun rs hrs => ?_
    simp only [rulesFromXml, obind_ok] at hrs
    obtain ⟨r, hr, rs', _, h3⟩ := hrs
    cases y with | mk tag attrs text ch =>
    simp only [Xml.tag] at hc
    simp only [ruleFromXml, hc, if_true, obind_ok] at hr
    obtain ⟨q, _, h2⟩ := hr
    simp only [Out.ok.injEq] at h2 h3
    subst h2
    subst h3
    simp

theorem configsFromXml_safe (cs : List Criterion) (n : Nat) (xs : List Xml) (h : ∀ x ∈ xs, ConfigShape x) :
    configsFromXml cs n xs ≠ .abort := by
  induction xs generalizing n with
  | nil => simp [configsFromXml]
  | cons x xs ih =>
    simp only [configsFromXml, (h x (by simp)).1, if_true]
    refine bind_safe (configFromXml_safe cs n x (h x (by simp))) fun c _ => ?_
    exact bind_safe (ih _ fun y hy => h y (by simp [hy])) (by simp)

theorem Xml.childOrLast_of_mem {x : Xml} {tag : Str} (h : ∃ y ∈ x.children, y.tag = tag) :
    ∃ y ∈ x.children, y.tag = tag ∧ x.childOrLast tag = some y := by
  obtain ⟨y, hy, ht⟩ := h
  unfold Xml.childOrLast Xml.child?
  cases hf : x.children.find? (fun y => y.tag == tag) with
  | none =>
    rw [List.find?_eq_none] at hf
    exact absurd ht (by simpa using hf y hy)
  | some z =>
    have := List.find?_some hf
    exact ⟨z, List.mem_of_find?_eq_some hf, by simpa using this, rfl⟩

theorem DomainShape.aware_some {x : Xml} (h : DomainShape x) : ∃ b, x.sequenceAware = some b := by
  unfold Xml.sequenceAware
  cases ht : x.attr (s "SequenceAware") with
  | none => exact ⟨_, rfl⟩
  | some t => exact h.aware t ht

theorem Domain.fromXml_safe {root : Elem} (wf : root.WF) {rd : Reader} {cs : List Criterion} {withSettings : Bool}
    {n : Nat} {att : Attached} (hatt : ∀ p, (p, n) ∉ att) {aware : Bool} {x : Xml} (hx : DomainShape x) :
    Domain.fromXml root rd cs withSettings n att aware x ≠ .abort := by
  obtain ⟨confs, hc1, hc2, hc3⟩ := Xml.childOrLast_of_mem hx.configs
  obtain ⟨els, he1, he2, he3⟩ := Xml.childOrLast_of_mem hx.elems
  unfold Domain.fromXml
  rw [hc3, he3]
  refine bind_safe (configsFromXml_safe cs _ _ (hx.configShape confs hc1 hc2)) fun configs h1 => ?_
  obtain ⟨c1, c2, c3, c4⟩ := configsFromXml_spec h1
  have hb : (Domain.blank n aware x configs).Loading root := Domain.blank_loading (by rw [c1]; exact List.nodup_range') c3
  have he := elemsFromXml_spec wf (xs := els.children) hb (att := att)
    (by intro p; simp [Domain.blank, Domain.new, hatt])
  refine bind_safe he.1 fun r hr => ?_
  obtain ⟨l0, _⟩ := he.2 r.1 r.2 hr
  rw [Domain.parseSettings_eq]
  have hs := settingsFromXml_spec wf (rd := rd) (xs := x.settingsList withSettings) l0
  refine bind_safe hs.1 fun d1 h3 => ?_
  obtain ⟨l1, _⟩ := hs.2 d1 h3
  obtain ⟨gv, v1, _⟩ := Domain.autoValidateAll_spec l1 (ps := d1.elems) (fun p hp => hp) l1.nodup
  rw [v1]
  simp

theorem domainsFromXml_safe {root : Elem} (wf : root.WF) {rd : Reader} {cs : List Criterion} {withSettings : Bool}
    {xs : List Xml} (hx : ∀ x ∈ xs, DomainShape x) {n : Nat} {att : Attached} (hatt : ∀ p i, (p, i) ∈ att → i < n) :
    domainsFromXml root rd cs withSettings xs n att ≠ .abort := by
  induction xs generalizing n att with
  | nil => simp [domainsFromXml]
  | cons x xs ih =>
    obtain ⟨aware, ha⟩ := DomainShape.aware_some (hx x (by simp))
    simp only [domainsFromXml, (hx x (by simp)).tag, if_true, ha]
    have hf : ∀ p, (p, n) ∉ att := fun p hp => Nat.lt_irrefl _ (hatt p n hp)
    refine bind_safe (Domain.fromXml_safe wf hf (hx x (by simp))) fun r hr => ?_
    obtain ⟨d, att', m⟩ := r
    obtain ⟨_, h2, _, _, _, h6, _, _, h9, _⟩ := Domain.fromXml_head wf hf hr
    refine bind_safe (ih (fun y hy => hx y (by simp [hy])) ?_) (by simp)
    intro p i hp
    have hp' := (h9 p i).1 hp
    split at hp'
    · change i < m; omega
    · exact Nat.lt_trans (hatt p i hp') h6

theorem St.Inv.importDomains_safe {root : Elem} (wf : root.WF) {st : St} (h : st.Inv root) (rd : Reader)
    (withSettings : Bool) {doc : Xml} (hx : ∀ x ∈ doc.children, DomainShape x) :
    (st.importDomains root rd withSettings doc).1 ≠ .abort := by
  unfold St.importDomains
  have hcl := h.clean
  dsimp only
  split
  · simp
  · split
    · simp
    · rw [hcl]
      have hs := domainsFromXml_safe wf (rd := rd) (cs := st.criteria) (withSettings := withSettings) hx
        (n := st.deleteAllDomains.2.nextId) (att := []) (by simp)
      split
      · simp
      · rename_i hd; exact absurd hd hs
      · rename_i ds att n hd
        obtain ⟨_, b2, _⟩ := domainsFromXml_spec wf (by simp) hd
        have key : ∀ d ∈ ds, ∃ d', Domain.validate root st.mem.main d = some d' := by
          intro d hd
          obtain ⟨g, h1, _⟩ := Domain.validate_spec wf (b2 d hd).1 h.main
          exact ⟨_, h1⟩
        rw [mapAll_total key]
        simp

theorem St.Inv.importDomain_safe {root : Elem} (wf : root.WF) {st : St} (h : st.Inv root) (rd : Reader)
    (overwrite withSettings : Bool) {doc : Xml} (hx : DomainShape doc) :
    (st.importDomain root rd overwrite withSettings doc).1 ≠ .abort := by
  unfold St.importDomain
  obtain ⟨aware, ha⟩ := DomainShape.aware_some hx
  simp only [hx.tag, ne_eq, not_true_eq_false, if_false, ha]
  have hs := Domain.fromXml_safe wf (rd := rd) (cs := st.criteria) (withSettings := withSettings) h.fresh_attached
    (aware := aware) hx
  split
  · simp
  · rename_i hd; exact absurd hd hs
  · split
    · simp
    · split <;> simp

theorem Env.setMainXml_safe {env : Env} (wf : env.root.WF) {ctx : Ctx} {autoSync : Bool} {p : Pos} {e : Elem}
    (he : env.root.at? p = some e) (x : XElem) {m : Mem} (hm : m.main.length = env.root.footprint) :
    (env.setMainXml ctx autoSync p x m).1 ≠ .abort := by
  have key : (Elem.setXml env.rd env.root ctx m.main p x).1 ≠ .abort := by
    unfold Elem.setXml
    obtain ⟨off, ho⟩ := Elem.offset_of_at (off := 0) he
    rw [he, ho]
    dsimp only
    split
    · simp
    · exact Elem.importXml_safe wf he env.rd ctx.hex ctx.raw x (by have := wf.area_main he ho; omega)
  unfold Env.setMainXml
  split
  · simp
  · rename_i h; rw [h] at key; exact absurd rfl key
  · split <;> simp

end PF
