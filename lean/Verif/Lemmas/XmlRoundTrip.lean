import Verif.Lemmas.XmlDeclares
import Verif.Lemmas.CriteriaFrame
import Verif.Props.XmlSettings
import Verif.Props.Tree

/-! # The domains of an export are read back -/

namespace PF
open Spec

/-! ## Lists -/

theorem Spec.Alike.nil {α β : Type} {R : α → β → Prop} : Alike R [] [] := ⟨rfl, by simp⟩

theorem Spec.Alike.cons {α β : Type} {R : α → β → Prop} {a : α} {b : β} {l : List α} {l' : List β} (h : R a b)
    (t : Alike R l l') : Alike R (a :: l) (b :: l') := by
  refine ⟨by simp [t.1], ?_⟩
  intro k x y hx hy
  cases k with
  | zero =>
    simp only [List.getElem?_cons_zero, Option.some.injEq] at hx hy
    subst hx; subst hy; exact h
  | succ k => exact t.2 k x y (by simpa using hx) (by simpa using hy)

theorem Spec.Alike.uncons {α β : Type} {R : α → β → Prop} {a : α} {l : List α} {m : List β} (t : Alike R (a :: l) m) :
    ∃ b l', m = b :: l' ∧ R a b ∧ Alike R l l' := by
  obtain ⟨h1, h2⟩ := t
  cases m with
  | nil => simp at h1
  | cons b l' =>
    refine ⟨b, l', rfl, h2 0 a b rfl rfl, by simpa using h1, ?_⟩
    intro k x y hx hy
    exact h2 (k + 1) x y (by simpa using hx) (by simpa using hy)

theorem Spec.Alike.unnil {α β : Type} {R : α → β → Prop} {m : List β} (t : Alike R ([] : List α) m) : m = [] := by
  have := t.1
  exact List.length_eq_zero_iff.1 this.symm

theorem Spec.Alike.imp {α β : Type} {R S : α → β → Prop} {l : List α} {m : List β} (t : Alike R l m)
    (h : ∀ a ∈ l, ∀ b ∈ m, R a b → S a b) : Alike S l m :=
  ⟨t.1, fun k a b ha hb => h a (List.mem_of_getElem? ha) b (List.mem_of_getElem? hb) (t.2 k a b ha hb)⟩

theorem Spec.Alike.map {α β γ : Type} {R : α → β → Prop} {S : α → γ → Prop} {l : List α} {m : List β} {g : β → γ}
    (t : Alike R l m) (h : ∀ a ∈ l, ∀ b ∈ m, R a b → S a (g b)) : Alike S l (m.map g) := by
  refine ⟨by simpa using t.1, ?_⟩
  intro k a b ha hb
  simp only [List.getElem?_map, Option.map_eq_some_iff] at hb
  obtain ⟨b0, hb0, rfl⟩ := hb
  exact h a (List.mem_of_getElem? ha) b0 (List.mem_of_getElem? hb0) (t.2 k a b0 ha hb0)

theorem Spec.Alike.map_eq {α β γ : Type} {R : α → β → Prop} {l : List α} {m : List β} {f : α → γ} {g : β → γ}
    (t : Alike R l m) (h : ∀ a b, R a b → g b = f a) : m.map g = l.map f := by
  induction l generalizing m with
  | nil => rw [t.unnil]; rfl
  | cons a l ih =>
    obtain ⟨b, l', rfl, h1, h2⟩ := t.uncons
    simp [h a b h1, ih h2]

/-! ## Elements -/

mutual
theorem XElem.xml_settings : (x : XElem) → x.xml.settings = x
  | .mk tag name vs text xs => by
    have h := XElem.xmls_settings xs
    simp only [XElem.xml, Xml.settings, h]
    congr 1
    by_cases hv : vs = []
    · simp only [hv, Xml.attrText, Xml.attr, Xml.attrs]; rfl
    · have hs : (s "Name" == s "ValueSpace") = false := by decide
      simp [hv, Xml.attrText, Xml.attr, Xml.attrs, hs]
theorem XElem.xmls_settings : (xs : List XElem) → Xml.settingsAll (XElem.xmls xs) = xs
  | [] => rfl
  | x :: xs => by simp only [XElem.xmls, Xml.settingsAll, XElem.xml_settings x, XElem.xmls_settings xs]
end

theorem XElem.xml_tag (x : XElem) : x.xml.tag = x.tag := by
  rw [← Xml.settings_tag, XElem.xml_settings]

theorem XElem.xml_name (x : XElem) : x.xml.nameAttr = x.name := by
  cases x
  simp [XElem.xml, Xml.nameAttr, Xml.attrText, Xml.attr, Xml.attrs, XElem.name]

/-! ## Rules and configurations -/

/-- The same criteria, in other states. -/
def SameNames (cs cs' : List Criterion) : Prop :=
  ∀ i : Nat, (cs'[i]?).map (fun c => (c.name, c.type)) = (cs[i]?).map (fun c => (c.name, c.type))

theorem SameNames.get {cs cs' : List Criterion} (h : SameNames cs cs') {i : Nat} {c : Criterion} (hc : cs[i]? = some c) :
    ∃ c', cs'[i]? = some c' ∧ c'.name = c.name ∧ c'.type = c.type := by
  have := h i
  rw [hc] at this
  simp only [Option.map_some, Option.map_eq_some_iff, Prod.mk.injEq] at this
  exact this

theorem SameNames.symm {cs cs' : List Criterion} (h : SameNames cs cs') : SameNames cs' cs := fun i => (h i).symm

theorem SameNames.trans {a b c : List Criterion} (h : SameNames a b) (k : SameNames b c) : SameNames a c :=
  fun i => (k i).trans (h i)

theorem Criterion.pathName_congr {c c' : Criterion} (h : c'.name = c.name) : c'.pathName = c.pathName := by
  simp [Criterion.pathName, h]

mutual
theorem Rule.toXml_declares {cs cs' : List Criterion} (hs : SameNames cs cs') : (r : Rule) → WellTyped cs r →
    Writable cs r → ∃ x, r.toXml cs = some x ∧ DeclaresRule cs' x r
  | .crit i verb v, hw, h => by
    cases hw with
    | crit _ _ _ c0 hc0 hverb _ =>
    cases h with
    | @crit _ _ _ c l hc hne hfirst hlit hback =>
    rw [hc] at hc0
    obtain rfl : c = c0 := by simpa using hc0
    obtain ⟨c', hc', hn, ht⟩ := hs.get hc
    have hpn : c'.pathName = c.name := by
      rw [Criterion.pathName_congr hn]; simp [Criterion.pathName, hne]
    refine ⟨_, by simp only [Rule.toXml, hc]; rfl, ?_⟩
    have hn1 : (s "SelectionCriterion" == s "MatchesWhen") = false := by decide
    have hn2 : (s "SelectionCriterion" == s "Value") = false := by decide
    have hn3 : (s "MatchesWhen" == s "Value") = false := by decide
    refine .crit rfl hc' ?_ ?_ ?_ ?_ ?_
    · rw [hpn]; simp [Xml.attrText, Xml.attr, Xml.attrs]
    · intro j d hj hd
      obtain ⟨d', hd', hdn, _⟩ := hs.symm.get hd
      have := hfirst j d' hj hd'
      rw [Criterion.pathName_congr hdn] at this
      simpa [Xml.attrText, Xml.attr, Xml.attrs] using this
    · simp [Xml.attrText, Xml.attr, Xml.attrs, hn1]
    · rw [ht]; exact hverb
    · rw [ht, ← hback]
      simp [Xml.attrText, Xml.attr, Xml.attrs, hn2, hn3, hlit]
  | .compound all rs, hw, h => by
    obtain ⟨xs, h1, h2⟩ := Rule.toXmlAll_declares hs rs (by cases hw; assumption) (by cases h; assumption)
    refine ⟨_, by simp only [Rule.toXml, h1]; rfl, ?_⟩
    refine .compound rfl ?_ h2.1.symm (fun i y r hy hr => h2.2 i r y hr hy)
    have : s "Any" ≠ s "All" := by decide
    cases all <;> simp [Xml.attrText, Xml.attr, Xml.attrs, this]
theorem Rule.toXmlAll_declares {cs cs' : List Criterion} (hs : SameNames cs cs') : (rs : List Rule) →
    (∀ r ∈ rs, WellTyped cs r) → (∀ r ∈ rs, Writable cs r) →
    ∃ xs, Rule.toXmlAll cs rs = some xs ∧ Alike (fun r x => DeclaresRule cs' x r) rs xs
  | [], _, _ => ⟨[], rfl, .nil⟩
  | r :: rs, hw, h => by
    obtain ⟨x, h1, h2⟩ := Rule.toXml_declares hs r (hw r (by simp)) (h r (by simp))
    obtain ⟨xs, h3, h4⟩ := Rule.toXmlAll_declares hs rs (fun r hr => hw r (by simp [hr])) (fun r hr => h r (by simp [hr]))
    exact ⟨x :: xs, by simp [Rule.toXmlAll, h1, h3], .cons h2 h4⟩
end

theorem nameAttrs_nameAttr (tag name text : Str) (rest : List (Str × Str)) (xs : List Xml)
    (hr : ∀ a ∈ rest, a.1 ≠ s "Name") : (Xml.mk tag (nameAttrs name ++ rest) text xs).nameAttr = name := by
  unfold nameAttrs
  split
  · rename_i h
    simp only [List.nil_append, Xml.nameAttr, Xml.attrText, Xml.attr, Xml.attrs]
    rw [List.find?_eq_none.2]
    · simp [h]
    · intro a ha; simpa using hr a ha
  · simp [Xml.nameAttr, Xml.attrText, Xml.attr, Xml.attrs]

theorem Config.toXml_read {cs cs' : List Criterion} (hs : SameNames cs cs') {c : Config}
    (hr : ∀ r, c.rule = some r → RuleOK cs r) (hw : ∀ r, c.rule = some r → Writable cs r) (n : Nat) :
    ∃ x, c.toXml cs = some x ∧ x.tag = s "Configuration" ∧ x.nameAttr = c.name ∧
      Config.fromXml cs' n x = .ok { id := n, name := c.name, rule := c.rule, areas := [] } := by
  have hname : ∀ xs, (Xml.mk (s "Configuration") (nameAttrs c.name) [] xs).nameAttr = c.name := by
    intro xs
    have := nameAttrs_nameAttr (s "Configuration") c.name [] [] xs (by simp)
    rwa [List.append_nil] at this
  unfold Config.toXml
  cases hc : c.rule with
  | none =>
    refine ⟨_, rfl, rfl, hname _, ?_⟩
    simp [Config.fromXml, Xml.children, rulesFromXml, Out.bind, hname]
  | some r =>
    obtain ⟨hwt, all, rs, rfl⟩ := hr r hc
    obtain ⟨x, h1, h2⟩ := Rule.toXml_declares hs _ hwt (hw _ hc)
    simp only [h1, Option.map_some]
    refine ⟨_, rfl, rfl, hname _, ?_⟩
    have := (ruleFromXml_iff x).2 h2
    simp [Config.fromXml, Xml.children, rulesFromXml, Out.bind, hname, this]

theorem configsToXml_read {cs cs' : List Criterion} (hs : SameNames cs cs') {l : List Config}
    (hr : RulesOK cs l) (hw : ∀ c ∈ l, ∀ r, c.rule = some r → Writable cs r) (n : Nat) :
    ∃ xs l', configsToXml cs l = .ok xs ∧ xs.map Xml.nameAttr = l.map Config.name ∧ configsFromXml cs' n xs = .ok l' ∧
      Alike SameHeading l l' := by
  induction l generalizing n with
  | nil => exact ⟨[], [], rfl, rfl, rfl, .nil⟩
  | cons c l ih =>
    obtain ⟨x, h1, h2, h3, h4⟩ := Config.toXml_read hs (hr c (by simp)) (hw c (by simp)) n
    obtain ⟨xs, l', k1, k2, k3, k4⟩ := ih (fun c hc => hr c (by simp [hc])) (fun c hc => hw c (by simp [hc])) (n + 1)
    refine ⟨x :: xs, ⟨n, c.name, c.rule, []⟩ :: l', by simp [configsToXml, h1, k1, Out.bind], by simp [h3, k2], ?_,
      .cons (a := c) ⟨rfl, rfl⟩ k4⟩
    simp only [configsFromXml, h2, if_true, h4, k3, Out.bind]

/-! ## Elements of a domain -/

/-- The paths of the elements are those the tree finds them by. -/
def PathsFound (root : Elem) (E : List Pos) : Prop := ∀ p ∈ E, ∃ t, root.path p = some t ∧ root.locate t = some p

theorem elemsToXml_read {root : Elem} (wf : root.WF) {ps : List Pos} (hf : PathsFound root ps) {d : Domain}
    (hl : d.Loading root) {att : Attached} (ha : ∀ p, (p, d.id) ∈ att ↔ p ∈ d.elems)
    (hnd : (d.elems ++ ps).Nodup) (hac : ∀ p ∈ d.elems ++ ps, ∀ q ∈ d.elems ++ ps, p <+: q → p = q) :
    ∃ xs d' att', elemsToXml root ps = .ok xs ∧ elemsFromXml root xs d att = .ok (d', att') ∧ d'.elems = d.elems ++ ps := by
  induction ps generalizing d att with
  | nil => exact ⟨[], d, att, rfl, rfl, by simp⟩
  | cons p ps ih =>
    obtain ⟨t, ht, hloc⟩ := hf p (by simp)
    have hp : p ∉ d.elems := by
      intro hm
      rw [List.nodup_append] at hnd
      exact hnd.2.2 p hm p (by simp) rfl
    have hanc : ∀ q ∈ d.elems, ¬ q <+: p := by
      intro q hq hqp
      have := hac q (by simp [hq]) p (by simp) hqp
      exact hp (this ▸ hq)
    have hdesc : ∀ q ∈ d.elems, ¬ Pos.isDescendantOf q p = true := by
      intro q hq hd
      have hpq := ((Pos.isDescendantOf_iff _ _).1 hd).1
      have := hac p (by simp) q (by simp [hq]) hpq
      exact hp (this ▸ hq)
    have hb : ¬ att.belongsTo p d.id = true := by
      unfold Attached.belongsTo
      rw [List.any_eq_true]
      rintro ⟨⟨q, i⟩, hq, hqi⟩
      simp only [Bool.and_eq_true, beq_iff_eq, decide_eq_true_eq] at hqi
      obtain ⟨rfl, hqp⟩ := hqi
      exact hanc q ((ha q).1 hq) hqp
    obtain ⟨e, he⟩ := Elem.locate_at hloc
    obtain ⟨d1, att1, h1, _, h3, _⟩ := Domain.doAdd_spec wf hl.toMid (att := att) hp he (main := none) (by simp)
    have hadd : d.addElem root att p none = .ok (d1, att1) := by
      unfold Domain.addElem
      rw [if_neg hp, if_neg hb, h1]
    have h3' : d1.elems = d.elems ++ [p] := by
      rw [h3, List.filter_eq_self.2]
      intro q hq
      simpa using hdesc q hq
    have hone : elemsFromXml root [.mk (s "ConfigurableElement") [(s "Path", t)] [] []] d att = .ok (d1, att1) := by
      simp [elemsFromXml, Xml.attrText, Xml.attr, Xml.attrs, hloc, hadd, Out.bind]
    obtain ⟨l1, hh, hatt, _⟩ := (elemsFromXml_spec wf hl ha).2 d1 att1 hone
    have ha1 : ∀ q, (q, d1.id) ∈ att1 ↔ q ∈ d1.elems := by
      intro q
      rw [hatt, hh.id, if_pos rfl]
    have hcat : d1.elems ++ ps = d.elems ++ p :: ps := by simp [h3']
    obtain ⟨xs, d', att', k1, k2, k3⟩ := ih (fun q hq => hf q (by simp [hq])) l1 ha1 (hcat ▸ hnd) (hcat ▸ hac)
    refine ⟨_ :: xs, d', att', by simp only [elemsToXml, ht, k1, Out.bind]; rfl, ?_, k3.trans hcat⟩
    simp [elemsFromXml, Xml.attrText, Xml.attr, Xml.attrs, hloc, hadd, Out.bind, k2]

/-! ## Settings -/

/-- The texts of format `ctx` carry the settings to a reader in real value space. -/
def Area.Carried (root : Elem) (ctx : Ctx) (a : Area) : Prop :=
  ∀ e, root.at? a.elem = some e → e.Carried ctx a.board 0 ∧ (ctx.raw = true → e.NonNegative a.board 0)

theorem Area.toXml_read {root : Elem} (wf : root.WF) (fd : root.FieldsDisjoint) {rd : Reader}
    (hrd : ReadsDecimals rd) {ctx : Ctx} {a : Area} (hs : a.Sized root) (hc : a.Carried root ctx) :
    ∃ x path, a.toXml root ctx = .ok x ∧ root.path a.elem = some path ∧ x.attrText (s "Path") = path ∧
      ∀ b : Area, b.elem = a.elem → b.Sized root → ∃ b', b.fromXml root rd x = .ok b' ∧ SameArea root a b' := by
  obtain ⟨e, he, hl⟩ := hs
  obtain ⟨off, ho⟩ := Elem.offset_of_at (off := 0) he
  obtain ⟨path, hp⟩ := Elem.path_of_at he
  have key := fun b' : Board => C53_area_round_trip_partial root wf fd he ho rd hrd ctx false false
    a.board b' (fun h => .inr ((hc e he).2 h)) hl (hc e he).1
  obtain ⟨x, h1, h2, h3, _⟩ := key a.board
  refine ⟨_, path, by simp only [Area.toXml, he, ho, hp, h1, Out.bind]; rfl, hp, by simp [Xml.attrText, Xml.attr, Xml.attrs], ?_⟩
  intro b hbe hbs
  obtain ⟨e', he', hbl⟩ := hbs
  rw [hbe, he] at he'
  obtain rfl : e = e' := by simpa using he'
  obtain ⟨y, g1, _, _, g2, _⟩ := key b.board
  rw [h1] at g1
  obtain rfl : x = y := by simpa using g1
  obtain ⟨raw', b'', g3, g4, g5⟩ := g2 hbl
  have hacc : (e.kind.acceptsTag x.xml.tag && x.xml.nameAttr == e.name) = true := by
    rw [XElem.xml_tag, XElem.xml_name, h2, h3, ← EKind.xmlTag_eq]
    simp [EKind.acceptsTag]
  refine ⟨{ b with board := b'', valid := true }, ?_, hbe, rfl, e, he, g4.trans hbl, g5⟩
  have hbe' : root.at? b.elem = some e := by rw [hbe]; exact he
  have hbo : root.offset 0 b.elem = some off := by rw [hbe]; exact ho
  simp only [Area.fromXml, hbe', hbo, Xml.children, hacc, if_true, XElem.xml_settings, g3]

theorem PathsFound.inj {root : Elem} {E : List Pos} (h : PathsFound root E) {p q : Pos} (hp : p ∈ E) (hq : q ∈ E)
    {t : Str} (h1 : root.path p = some t) (h2 : root.path q = some t) : p = q := by
  obtain ⟨u, hu, hup⟩ := h p hp
  obtain ⟨v, hv, hvq⟩ := h q hq
  rw [h1] at hu; rw [h2] at hv
  simp only [Option.some.injEq] at hu hv
  subst hu; subst hv
  rw [hup] at hvq
  simpa using hvq

theorem areasToXml_read {root : Elem} (wf : root.WF) (fd : root.FieldsDisjoint) {rd : Reader}
    (hrd : ReadsDecimals rd) {ctx : Ctx} {as : List Area} (hs : ∀ a ∈ as, a.Sized root)
    (hc : ∀ a ∈ as, a.Carried root ctx) (hnd : (as.map Area.elem).Nodup) {front back : List Area}
    (hf : PathsFound root ((front ++ back).map Area.elem)) (hfb : ((front ++ back).map Area.elem).Nodup)
    (hsz : ∀ b ∈ front ++ back, b.Sized root) (hb : ∀ p, p ∈ back.map Area.elem ↔ p ∈ as.map Area.elem) :
    ∃ xs as', areasToXml root ctx as = .ok xs ∧ areasFromXml root rd front back xs = .ok (front ++ as') ∧
      Alike (SameArea root) as as' := by
  induction as generalizing front back with
  | nil =>
    have : back = [] := by
      cases back with
      | nil => rfl
      | cons b _ => exact absurd ((hb b.elem).1 (by simp)) (by simp)
    exact ⟨[], [], rfl, by simp [areasFromXml, this], .nil⟩
  | cons a as ih =>
    obtain ⟨x, path, h1, h2, h3, h4⟩ := Area.toXml_read wf fd hrd (hs a (by simp)) (hc a (by simp))
    have hfb' := hfb
    rw [List.map_append, List.nodup_append] at hfb'
    obtain ⟨n1, n2, n3⟩ := hfb'
    have hain : a.elem ∈ back.map Area.elem := (hb _).2 (by simp)
    have hE : a.elem ∈ (front ++ back).map Area.elem := by
      rw [List.map_append]; exact List.mem_append_right _ hain
    obtain ⟨b0, hb0, hb0e⟩ := List.mem_map.1 hE
    have hfind : ∃ b, areaByPath root path (front ++ back) = some b := by
      cases hh : areaByPath root path (front ++ back) with
      | some b => exact ⟨b, rfl⟩
      | none =>
        unfold areaByPath at hh
        rw [List.find?_eq_none] at hh
        have := hh b0 hb0
        simp [hb0e, h2] at this
    obtain ⟨b, hbf⟩ := hfind
    have hbm : b ∈ front ++ back := List.mem_of_find?_eq_some hbf
    have hbp : root.path b.elem = some path := by simpa using List.find?_some hbf
    have hbe : b.elem = a.elem := hf.inj (List.mem_map.2 ⟨b, hbm, rfl⟩) hE hbp h2
    obtain ⟨b', g1, g2⟩ := h4 b hbe (hsz b hbm)
    have hfr : ∀ z ∈ front, ¬ (z.elem == b.elem) = true := by
      intro z hz hzb
      rw [beq_iff_eq, hbe] at hzb
      exact n3 z.elem (List.mem_map.2 ⟨z, hz, rfl⟩) a.elem hain hzb
    have he1 : front.eraseP (fun z => z.elem == b.elem) = front := List.eraseP_of_forall_not hfr
    have he2 : front.any (fun z => z.elem == b.elem) = false := by
      rw [List.any_eq_false]; exact hfr
    have hel : (back.eraseP (fun z => z.elem == b.elem)).map Area.elem = (back.map Area.elem).filter (· ≠ b.elem) :=
      eraseP_elems n2
    rw [List.map_cons, List.nodup_cons] at hnd
    have hsub : ∀ p, p ∈ ((front ++ [b']) ++ back.eraseP (fun z => z.elem == b.elem)).map Area.elem →
        p ∈ (front ++ back).map Area.elem := by
      intro p hp
      rw [List.map_append, List.map_append, hel] at hp
      simp only [List.mem_append, List.mem_filter, List.map_cons, List.map_nil, List.mem_cons, List.not_mem_nil,
        or_false] at hp
      rcases hp with (hp | rfl) | hp
      · rw [List.map_append]; exact List.mem_append_left _ hp
      · rw [g2.1]; exact hE
      · rw [List.map_append]; exact List.mem_append_right _ hp.1
    obtain ⟨xs, as', k1, k2, k3⟩ := ih (fun a ha => hs a (by simp [ha])) (fun a ha => hc a (by simp [ha])) hnd.2
      (front := front ++ [b']) (back := back.eraseP (fun z => z.elem == b.elem))
      (fun p hp => hf p (hsub p hp)) (by
        rw [List.map_append, List.map_append, hel, List.append_assoc, List.nodup_append]
        refine ⟨n1, ?_, ?_⟩
        · simp only [List.map_cons, List.map_nil, List.singleton_append, List.nodup_cons]
          refine ⟨?_, n2.sublist List.filter_sublist⟩
          rw [g2.1, hbe]
          simp
        · intro u hu v hv huv
          subst huv
          simp only [List.map_cons, List.map_nil, List.singleton_append, List.mem_cons, List.mem_filter] at hv
          rcases hv with rfl | hv
          · rw [g2.1] at hu; exact n3 _ hu _ hain rfl
          · exact n3 u hu u hv.1 rfl) (by
        intro z hz
        simp only [List.mem_append, List.mem_cons, List.not_mem_nil, or_false] at hz
        rcases hz with (hz | rfl) | hz
        · exact hsz z (by simp [hz])
        · obtain ⟨q1, _, e, q2, q3, _⟩ := g2
          exact ⟨e, by rw [q1]; exact q2, q3⟩
        · exact hsz z (by simp [List.mem_of_mem_eraseP hz])) (by
        intro p
        rw [hel, List.mem_filter, hb p, hbe]
        simp only [List.map_cons, List.mem_cons, ne_eq, decide_not, Bool.not_eq_true', decide_eq_false_iff_not]
        constructor
        · rintro ⟨rfl | hp, hne⟩
          · exact absurd rfl hne
          · exact hp
        · intro hp
          refine ⟨.inr hp, ?_⟩
          rintro rfl
          exact hnd.1 hp)
    refine ⟨x :: xs, b' :: as', by simp [areasToXml, h1, k1, Out.bind], ?_, .cons g2 k3⟩
    rw [areasFromXml, h3, hbf]
    simp only [g1, Out.bind, he1, he2, Bool.false_eq_true, if_false, k2, List.append_assoc, List.singleton_append]

theorem settingsToXml_read {root : Elem} (wf : root.WF) (fd : root.FieldsDisjoint) {rd : Reader}
    (hrd : ReadsDecimals rd) {ctx : Ctx} {E : List Pos} (hf : PathsFound root E)
    {cs : List Config} (hok : ∀ c ∈ cs, c.OK root E) (hc : ∀ c ∈ cs, ∀ a ∈ c.areas, a.Carried root ctx)
    {d : Domain} {done todo : List Config} (hd : d.configs = done ++ todo) (hids : (d.configs.map Config.id).Nodup)
    (hn : (d.configs.map Config.name).Nodup) (hne : ∀ c ∈ d.configs, c.name ≠ []) (hoks : ∀ c ∈ todo, c.OK root E)
    (hal : Alike SameHeading cs todo) :
    ∃ xs todo', settingsToXml root ctx cs = .ok xs ∧
      settingsFromXml root rd xs d = .ok { d with configs := done ++ todo' } ∧ Alike (SameConfig root) cs todo' := by
  induction cs generalizing d done todo with
  | nil =>
    have := hal.unnil
    subst this
    refine ⟨[], [], rfl, ?_, .nil⟩
    simp only [settingsFromXml, ← hd]
  | cons c cs ih =>
    obtain ⟨t, todo1, rfl, h1, h2⟩ := hal.uncons
    have hct := hoks t (by simp)
    have hcc := hok c (by simp)
    obtain ⟨xs, as', k1, k2, k3⟩ := areasToXml_read wf fd hrd hcc.sized (hc c (by simp)) hcc.nodup (front := [])
      (back := t.areas) (by
        intro p hp
        rw [List.nil_append, hct.mem] at hp
        exact hf p hp) (by simpa using hct.nodup) (by simpa using hct.sized)
      (fun p => (hct.mem p).trans (hcc.mem p).symm)
    have htm : t ∈ d.configs := by rw [hd]; simp
    have hfind : d.findConfig c.name = some t := by
      have : t.pathName = t.name := by simp [Config.pathName, hne t htm]
      rw [← h1.1, ← this]
      exact Domain.findConfig_named hn hne htm
    have hset : d.setConfig { t with areas := as' } = { d with configs := done ++ { t with areas := as' } :: todo1 } := by
      unfold Domain.setConfig
      congr 1
      rw [hd] at hids ⊢
      simp only [List.map_append, List.map_cons, List.nodup_append, List.nodup_cons, List.mem_map, not_exists, not_and,
        List.mem_cons, forall_exists_index, and_imp, forall_apply_eq_imp_iff₂] at hids ⊢
      obtain ⟨i1, ⟨i2, i3⟩, i4⟩ := hids
      simp only [if_true]
      congr 1
      · conv => rhs; rw [← List.map_id done]
        apply List.map_congr_left
        intro z hz
        rw [if_neg]
        · rfl
        · exact fun e => i4 z hz t.id (.inl rfl) e
      · congr 1
        conv => rhs; rw [← List.map_id todo1]
        apply List.map_congr_left
        intro z hz
        rw [if_neg]
        · rfl
        · exact i2 z hz
    obtain ⟨ys, todo', m1, m2, m3⟩ := ih (fun c hc => hok c (by simp [hc])) (fun c hcm => hc c (by simp [hcm]))
      (d := { d with configs := done ++ { t with areas := as' } :: todo1 }) (done := done ++ [{ t with areas := as' }])
      (todo := todo1) (by simp) (by
        have : (done ++ { t with areas := as' } :: todo1).map Config.id = d.configs.map Config.id := by rw [hd]; simp
        show (List.map Config.id (done ++ { t with areas := as' } :: todo1)).Nodup
        rw [this]; exact hids) (by
        have : (done ++ { t with areas := as' } :: todo1).map Config.name = d.configs.map Config.name := by rw [hd]; simp
        show (List.map Config.name (done ++ { t with areas := as' } :: todo1)).Nodup
        rw [this]; exact hn) (by
        intro z hz
        have hz : z ∈ done ++ { t with areas := as' } :: todo1 := hz
        simp only [List.mem_append, List.mem_cons] at hz
        rcases hz with hz | rfl | hz
        · exact hne z (by rw [hd]; simp [hz])
        · exact hne t htm
        · exact hne z (by rw [hd]; simp [hz])) (fun z hz => hoks z (by simp [hz])) h2
    refine ⟨Xml.mk (s "Configuration") [(s "Name", c.name)] [] xs :: ys, { t with areas := as' } :: todo', ?_, ?_,
      .cons ⟨h1, k3⟩ m3⟩
    · simp [settingsToXml, k1, m1, Out.bind]
    · have hna : (Xml.mk (s "Configuration") [(s "Name", c.name)] [] xs).nameAttr = c.name := by
        simp [Xml.nameAttr, Xml.attrText, Xml.attr, Xml.attrs]
      rw [settingsFromXml, hna, hfind]
      simp only [Xml.children, k2, List.nil_append, Out.bind, hset, m2, List.append_assoc, List.singleton_append]

/-! ## Validation of valid settings -/

theorem mapAll_id {α : Type} {f : α → Option α} {l : List α} (h : ∀ a ∈ l, f a = some a) : mapAll f l = some l := by
  induction l with
  | nil => rfl
  | cons a l ih => simp [mapAll, h a (by simp), ih fun b hb => h b (by simp [hb])]

theorem Domain.mapConfigs_id {d : Domain} {f : Config → Option Config} (h : ∀ c ∈ d.configs, f c = some c) :
    d.mapConfigs f = some d := by
  simp [Domain.mapConfigs, mapAll_id h]

theorem findValid_all {p : Pos} {l : List Config} (h : ∀ c ∈ l, c.isValid p = some true) : ∃ r, findValid p l = some r := by
  cases l with
  | nil => exact ⟨none, rfl⟩
  | cons c l => exact ⟨some c, by simp [findValid, h c (by simp)]⟩

theorem Domain.autoValidateAll_id {d : Domain} {ps : List Pos} (h : ∀ p ∈ ps, ∀ c ∈ d.configs, c.isValid p = some true) :
    d.autoValidateAll ps = some d := by
  induction ps with
  | nil => rfl
  | cons p ps ih =>
    obtain ⟨r, hr⟩ := findValid_all (h p (by simp))
    have : d.autoValidate p = some d := by
      unfold Domain.autoValidate
      rw [hr]
      cases r with
      | none => rfl
      | some v =>
        apply Domain.mapConfigs_id
        intro c hc
        split
        · rfl
        · simp [h p (by simp) c hc]
    simp only [Domain.autoValidateAll, this]
    exact ih fun q hq => h q (by simp [hq])

theorem Domain.validate_id {root : Elem} {main : Board} {d : Domain} (h : ∀ c ∈ d.configs, ∀ a ∈ c.areas, a.valid = true) :
    d.validate root main = some d := by
  apply Domain.mapConfigs_id
  intro c hc
  have : mapAll (Area.validate root main) c.areas = some c.areas := by
    apply mapAll_id
    intro a ha
    simp [Area.validate, h c hc a ha]
  simp [Config.validate, this]

/-! ## Domains -/

theorem Spec.Alike.left {α β : Type} {R : α → β → Prop} {l : List α} {m : List β} (t : Alike R l m) {b : β} (hb : b ∈ m) :
    ∃ a ∈ l, R a b := by
  obtain ⟨k, hk⟩ := List.mem_iff_getElem?.1 hb
  have hlt : k < l.length := by
    rw [t.1]
    exact (List.getElem?_eq_some_iff.1 hk).1
  exact ⟨l[k], List.getElem_mem hlt, t.2 k _ b (List.getElem?_eq_getElem hlt) hk⟩

theorem Spec.SameConfig.valid {root : Elem} {c c' : Config} (h : SameConfig root c c') : ∀ a ∈ c'.areas, a.valid = true := by
  intro a ha
  obtain ⟨_, _, h1⟩ := h.2.left ha
  exact h1.2.1

theorem Spec.SameConfig.elems {root : Elem} {c c' : Config} (h : SameConfig root c c') :
    c'.areas.map Area.elem = c.areas.map Area.elem := h.2.map_eq fun _ _ h => h.1

/-- What is needed of a domain to export it and to read the result. -/
structure Domain.Exportable (root : Elem) (cs : List Criterion) (d : Domain) : Prop where
  good : d.Good root
  rules : RulesOK cs d.configs
  writable : ∀ c ∈ d.configs, ∀ r, c.rule = some r → Writable cs r
  paths : PathsFound root d.elems
  names : (d.configs.map Config.name).Nodup
  named : ∀ c ∈ d.configs, c.name ≠ []

/-- The parts of an exported domain. -/
def Domain.xmlOf (d : Domain) (confs els sets : List Xml) : Xml :=
  .mk (s "ConfigurableDomain") (nameAttrs d.name ++ [(s "SequenceAware", if d.seqAware then s "true" else s "false")]) []
    (.mk (s "Configurations") [] [] confs :: .mk (s "ConfigurableElements") [] [] els :: sets)

theorem Domain.xmlOf_name (d : Domain) (confs els sets : List Xml) : (d.xmlOf confs els sets).nameAttr = d.name := by
  apply nameAttrs_nameAttr
  intro a ha
  simp only [List.mem_cons, List.not_mem_nil, or_false] at ha
  subst ha
  exact (by decide : s "SequenceAware" ≠ s "Name")

theorem Domain.xmlOf_aware (d : Domain) (confs els sets : List Xml) :
    (d.xmlOf confs els sets).sequenceAware = some d.seqAware := by
  have h1 : (s "Name" == s "SequenceAware") = false := by decide
  have h2 : (d.xmlOf confs els sets).attr (s "SequenceAware") = some (if d.seqAware then s "true" else s "false") := by
    unfold Domain.xmlOf Xml.attr Xml.attrs nameAttrs
    simp only
    split <;> simp [h1]
  unfold Xml.sequenceAware
  rw [h2]
  cases d.seqAware <;> decide

theorem Domain.xmlOf_configs (d : Domain) (confs els sets : List Xml) :
    (d.xmlOf confs els sets).childOrLast (s "Configurations") = some (.mk (s "Configurations") [] [] confs) := by
  simp [Domain.xmlOf, Xml.childOrLast, Xml.child?, Xml.children, Xml.tag]

theorem Domain.xmlOf_elems (d : Domain) (confs els sets : List Xml) :
    (d.xmlOf confs els sets).childOrLast (s "ConfigurableElements") = some (.mk (s "ConfigurableElements") [] [] els) := by
  have h1 : (s "Configurations" == s "ConfigurableElements") = false := by decide
  simp [Domain.xmlOf, Xml.childOrLast, Xml.child?, Xml.children, Xml.tag, h1]

theorem Domain.xmlOf_settings (d : Domain) (confs els sets : List Xml) :
    (d.xmlOf confs els [.mk (s "Settings") [] [] sets]).child? (s "Settings") = some (.mk (s "Settings") [] [] sets) := by
  have h1 : (s "Configurations" == s "Settings") = false := by decide
  have h2 : (s "ConfigurableElements" == s "Settings") = false := by decide
  simp [Domain.xmlOf, Xml.child?, Xml.children, Xml.tag, h1, h2]

theorem Domain.toXml_read {root : Elem} (wf : root.WF) (fd : root.FieldsDisjoint) {rd : Reader}
    (hrd : ReadsDecimals rd) {cs cs' : List Criterion} (hs : SameNames cs cs') {ctx : Ctx}
    {d : Domain} (h : d.Exportable root cs) {withSettings : Bool}
    (hc : withSettings = true → ∀ c ∈ d.configs, ∀ a ∈ c.areas, a.Carried root ctx)
    {n : Nat} {att : Attached} (hatt : ∀ p, (p, n) ∉ att) :
    ∃ confs els sets d' att' m, d.toXml root cs ctx withSettings = .ok (d.xmlOf confs els sets) ∧
      confs.map Xml.nameAttr = d.configs.map Config.name ∧
      Domain.fromXml root rd cs' withSettings n att d.seqAware (d.xmlOf confs els sets) = .ok (d', att', m) ∧
      SameDomain SameHeading d d' ∧ (withSettings = true → SameDomain (SameConfig root) d d') := by
  obtain ⟨confs, l, c1, c2, c3, c4⟩ := configsToXml_read hs h.rules h.writable (n + 1)
  obtain ⟨e1, e2, e3, e4⟩ := configsFromXml_spec c3
  have hx : ∀ els sets, Domain.blank n d.seqAware (d.xmlOf confs els sets) l =
      { Domain.new n d.name with seqAware := d.seqAware, configs := l } := by
    intro els sets
    unfold Domain.blank
    rw [Domain.xmlOf_name]
  have hb : Domain.Loading root { Domain.new n d.name with seqAware := d.seqAware, configs := l } := by
    rw [← hx [] []]
    exact Domain.blank_loading (by rw [e1]; exact List.nodup_range') e3
  have hab : ∀ p, (p, Domain.id { Domain.new n d.name with seqAware := d.seqAware, configs := l }) ∈ att ↔
      p ∈ Domain.elems { Domain.new n d.name with seqAware := d.seqAware, configs := l } := by
    intro p
    simp [Domain.new, hatt]
  obtain ⟨els, d0, att', f1, f2, f3⟩ := elemsToXml_read wf h.paths hb hab (by simpa [Domain.new] using h.good.nodup)
    (by simpa [Domain.new] using h.good.antichain)
  have f3 : d0.elems = d.elems := by rw [f3]; simp [Domain.new]
  obtain ⟨l0, hh, _, _, _, g, g1, g2, _⟩ := (elemsFromXml_spec wf hb hab).2 d0 att' f2
  have hal : Alike SameHeading d.configs d0.configs := by
    rw [g1]
    apply c4.map
    intro a _ b hbm hab
    have := g2 b hbm
    exact ⟨this.2.1.trans hab.1, this.2.2.trans hab.2⟩
  have hname : d0.name = d.name := hh.name
  have haw : d0.seqAware = d.seqAware := hh.seqAware
  cases withSettings with
  | false =>
    obtain ⟨gv, v1, v2, _⟩ := Domain.autoValidateAll_spec l0 (ps := d0.elems) (fun p hp => hp) l0.nodup
    refine ⟨confs, els, [], { d0 with configs := d0.configs.map gv }, att', n + 1 + l.length, ?_, c2, ?_, ?_, by simp⟩
    · simp only [Domain.toXml, c1, f1, Out.bind, Bool.false_eq_true, if_false]
      rfl
    · unfold Domain.fromXml
      rw [Domain.xmlOf_configs, Domain.xmlOf_elems]
      simp only [Xml.children, c3, Out.bind, Domain.xmlOf_name, f2, Domain.parseSettings, Bool.not_false, if_true, v1]
    · refine ⟨hname, haw, f3, ?_⟩
      apply hal.map
      intro a _ b hbm hab
      have := v2 b hbm
      exact ⟨this.2.1.trans hab.1, this.2.2.trans hab.2⟩
  | true =>
    have hnm : d0.configs.map Config.name = d.configs.map Config.name := hal.map_eq fun _ _ h => h.1
    obtain ⟨xs, todo', s1, s2, s3⟩ := settingsToXml_read wf fd hrd h.paths h.good.ok (hc rfl) (d := d0) (done := [])
      (todo := d0.configs) rfl l0.ids (by rw [hnm]; exact h.names) (by
        intro c hcm
        obtain ⟨a, ha, hac⟩ := hal.left hcm
        rw [hac.1]
        exact h.named a ha) (by
        intro c hcm
        have := l0.ok c hcm
        rwa [f3] at this) hal
    simp only [List.nil_append] at s2
    have hval : ∀ p ∈ d.elems, ∀ c ∈ todo', c.isValid p = some true := by
      intro p hp c hcm
      obtain ⟨a, ha, hac⟩ := s3.left hcm
      have hpm : p ∈ c.areas.map Area.elem := by
        rw [hac.elems]
        exact ((h.good.ok a ha).mem p).2 hp
      obtain ⟨u, hu, hup⟩ := List.mem_map.1 hpm
      unfold Config.isValid Config.area?
      cases hfd : c.areas.find? (fun a => a.elem == p) with
      | none =>
        have := List.find?_eq_none.1 hfd u hu
        simp [hup] at this
      | some v => simp [hac.valid v (List.mem_of_find?_eq_some hfd)]
    have hauto := Domain.autoValidateAll_id (d := { d0 with configs := todo' }) (ps := d0.elems) (by rw [f3]; exact hval)
    have hsame : SameDomain (SameConfig root) d { d0 with configs := todo' } := ⟨hname, haw, f3, s3⟩
    refine ⟨confs, els, [.mk (s "Settings") [] [] xs], { d0 with configs := todo' }, att', n + 1 + l.length, ?_, c2, ?_, ?_,
      fun _ => hsame⟩
    · simp only [Domain.toXml, c1, f1, s1, Out.bind, if_true]
      rfl
    · unfold Domain.fromXml
      rw [Domain.xmlOf_configs, Domain.xmlOf_elems]
      simp only [Xml.children, c3, Out.bind, Domain.xmlOf_name, f2, Domain.parseSettings, Bool.not_true, Bool.false_eq_true,
        if_false, Domain.xmlOf_settings, s2, hauto]
    · exact ⟨hname, haw, f3, s3.imp fun _ _ _ _ h => h.1⟩

theorem domainsToXml_read {root : Elem} (wf : root.WF) (fd : root.FieldsDisjoint) {rd : Reader}
    (hrd : ReadsDecimals rd) {cs cs' : List Criterion} (hs : SameNames cs cs') {ctx : Ctx}
    {ds : List Domain} (h : ∀ d ∈ ds, d.Exportable root cs) {withSettings : Bool}
    (hc : withSettings = true → ∀ d ∈ ds, ∀ c ∈ d.configs, ∀ a ∈ c.areas, a.Carried root ctx)
    {n : Nat} {att : Attached} (hatt : ∀ p i, (p, i) ∈ att → i < n) :
    ∃ xs ds' att' m, domainsToXml root cs ctx withSettings ds = .ok xs ∧
      Alike (fun d x => ∃ confs els sets, x = d.xmlOf confs els sets ∧ confs.map Xml.nameAttr = d.configs.map Config.name)
        ds xs ∧
      domainsFromXml root rd cs' withSettings xs n att = .ok (ds', att', m) ∧
      Alike (SameDomain SameHeading) ds ds' ∧ (withSettings = true → Alike (SameDomain (SameConfig root)) ds ds') := by
  induction ds generalizing n att with
  | nil => exact ⟨[], [], att, n, rfl, .nil, rfl, .nil, fun _ => .nil⟩
  | cons d ds ih =>
    have hfr : ∀ p, (p, n) ∉ att := fun p hp => Nat.lt_irrefl n (hatt p n hp)
    obtain ⟨confs, els, sets, d', att1, m1, h1, h2, h3, h4, h5⟩ := Domain.toXml_read wf fd hrd hs (h d (by simp))
      (fun hw => hc hw d (by simp)) hfr
    obtain ⟨_, _, _, _, _, k6, _, _, k9, _⟩ := Domain.fromXml_head wf hfr h3
    obtain ⟨xs, ds', att', m, m1', m2, m3, m4, m5⟩ := ih (fun d hd => h d (by simp [hd]))
      (fun hw d hd => hc hw d (by simp [hd])) (n := m1) (att := att1) (by
        intro p i hp
        rw [k9] at hp
        split at hp
        · omega
        · have := hatt p i hp; omega)
    refine ⟨_ :: xs, d' :: ds', att', m, by simp only [domainsToXml, h1, m1', Out.bind], .cons ⟨confs, els, sets, rfl, h2⟩ m2, ?_,
      .cons h4 m4, fun hw => .cons (h5 hw) (m5 hw)⟩
    have ht : (d.xmlOf confs els sets).tag = s "ConfigurableDomain" := rfl
    simp only [domainsFromXml, ht, if_true, Domain.xmlOf_aware, h3, m3, Out.bind]

/-! ## States -/

theorem SameNames.refl (cs : List Criterion) : SameNames cs cs := fun _ => rfl

theorem DomOp.step_sameNames (env : Env) (st : St) (op : DomOp) : SameNames st.criteria (op.step env st).2.criteria := by
  by_cases h1 : ∃ i v, op = .setCriterion i v
  · obtain ⟨i, v, rfl⟩ := h1
    intro j
    simp only [DomOp.step, St.setCriterion, List.getElem?_mapIdx, Option.map_map]
    congr 1
    funext c
    simp only [Function.comp_apply]
    split
    · unfold Criterion.setState
      split <;> rfl
    · rfl
  by_cases h2 : ∃ force, op = .apply force
  · obtain ⟨force, rfl⟩ := h2
    simp only [DomOp.step, St.apply]
    split
    · exact .refl _
    · intro j
      simp only [List.getElem?_map, Option.map_map]
      rfl
  rw [DomOp.step_criteria env st op (fun i v e => h1 ⟨i, v, e⟩) (fun f e => h2 ⟨f, e⟩)]
  exact .refl _

theorem Reachable.sameNames {env : Env} {cs : List Criterion} {st : St} (h : Reachable env cs st) :
    SameNames cs st.criteria := by
  induction h with
  | init _ => exact .refl _
  | step _ _ _ ih => exact ih.trans (DomOp.step_sameNames env _ _)

theorem nonempty_names_nodup {α : Type} {l : List α} {id : α → Nat} {name : α → Str} (h : (l.map id).Nodup)
    (hu : ∀ a ∈ l, ∀ b ∈ l, name a = name b → name a ≠ [] → a = b) : ((l.map name).filter (· ≠ [])).Nodup := by
  induction l with
  | nil => simp
  | cons a l ih =>
    simp only [List.map_cons, List.nodup_cons] at h
    have ih := ih h.2 fun x hx y hy => hu x (by simp [hx]) y (by simp [hy])
    rw [List.map_cons, List.filter_cons]
    split
    · rename_i hne
      rw [List.nodup_cons]
      refine ⟨?_, ih⟩
      intro hm
      simp only [List.mem_filter, List.mem_map] at hm
      obtain ⟨⟨b, hb, hbn⟩, _⟩ := hm
      have := hu a (by simp) b (by simp [hb]) hbn.symm (by simpa using hne)
      subst this
      exact h.1 (List.mem_map.2 ⟨a, hb, rfl⟩)
    · exact ih

end PF
