import Verif.Lemmas.XmlShape

/-! # What an import does is what the document declares -/

namespace PF
open Spec

theorem setMatchesWhen_iff {t : CritType} {w : Str} {verb : Verb} :
    setMatchesWhen t w = .ok verb ↔ w = verb.text ∧ (t.inclusive = true ∨ verb = .is ∨ verb = .isNot) := by
  refine ⟨setMatchesWhen_ok, ?_⟩
  rintro ⟨rfl, h⟩
  unfold setMatchesWhen
  cases verb <;> simp [setMatchesWhen.go, Verb.text, Verb.exclusiveOk, s] at h ⊢ <;> simp [h]

theorem findCriterion_iff {cs : List Criterion} {name : Str} {i : Nat} :
    findCriterion cs name = some i ↔ (∃ c, cs[i]? = some c ∧ c.pathName = name) ∧
      ∀ j c', j < i → cs[j]? = some c' → c'.pathName ≠ name := by
  unfold findCriterion
  rw [List.findIdx?_eq_some_iff_getElem]
  constructor
  · rintro ⟨h, h1, h2⟩
    refine ⟨⟨cs[i], List.getElem?_eq_getElem h, by simpa using h1⟩, ?_⟩
    intro j c' hj hc'
    have := h2 j hj
    rw [List.getElem?_eq_getElem (by omega)] at hc'
    simp only [Option.some.injEq] at hc'
    subst hc'
    simpa using this
  · rintro ⟨⟨c, hc, hn⟩, h2⟩
    obtain ⟨hi, hg⟩ := List.getElem?_eq_some_iff.1 hc
    refine ⟨hi, by simp [hg, hn], ?_⟩
    intro j hj
    have := h2 j cs[j] hj (List.getElem?_eq_getElem (by omega))
    simpa using this

theorem critFromXml_iff {cs : List Criterion} {x : Xml} (ht : x.tag = s "SelectionCriterionRule") {r : Rule} :
    critFromXml cs x = .ok r ↔ DeclaresRule cs x r := by
  constructor
  · intro h
    unfold critFromXml at h
    split at h; · simp at h
    rename_i i hi
    split at h; · simp at h
    rename_i c hc
    split at h
    · rename_i verb hverb
      split at h; · simp at h
      rename_i v hv
      simp only [Out.ok.injEq] at h
      subst h
      obtain ⟨⟨c', hc', hn⟩, h2⟩ := findCriterion_iff.1 hi
      rw [hc] at hc'
      cases hc'
      obtain ⟨k1, k2⟩ := setMatchesWhen_iff.1 hverb
      exact .crit ht hc hn h2 k1.symm k2 hv
    · simp at h
  · intro h
    cases h with
    | compound h => exact absurd (ht.symm.trans h) (by decide)
    | crit _ hc hn hf hv hm hval =>
      unfold critFromXml
      rw [findCriterion_iff.2 ⟨⟨_, hc, hn⟩, hf⟩]
      simp only [hc, setMatchesWhen_iff.2 ⟨hv.symm, hm⟩, hval]

mutual
theorem ruleFromXml_iff {cs : List Criterion} : (x : Xml) → {r : Rule} → (ruleFromXml cs x = .ok r ↔ DeclaresRule cs x r)
  | .mk tag attrs text ch, r => by
    simp only [ruleFromXml]
    by_cases ht : tag = s "CompoundRule"
    · rw [if_pos ht, obind_ok]
      constructor
      · rintro ⟨rs, h1, h2⟩
        simp only [Out.ok.injEq] at h2
        subst h2
        obtain ⟨k1, k2⟩ := rulesFromXml_iff ch |>.1 h1
        exact .compound ht (by simp) k1 k2
      · intro h
        cases h with
        | compound _ ha hl hc =>
          refine ⟨_, (rulesFromXml_iff ch).2 ⟨hl, hc⟩, ?_⟩
          simp only [Out.ok.injEq, Rule.compound.injEq, and_true]
          exact Bool.eq_iff_iff.2 (by rw [ha]; simp)
        | crit h => exact absurd (ht.symm.trans h) (by decide)
    · rw [if_neg ht]
      by_cases ht2 : tag = s "SelectionCriterionRule"
      · rw [if_pos ht2]
        exact critFromXml_iff (x := .mk tag attrs text ch) ht2
      · rw [if_neg ht2]
        constructor
        · intro h; split at h <;> simp at h
        · intro h
          cases h with
          | compound h => exact absurd h ht
          | crit h => exact absurd h ht2
theorem rulesFromXml_iff {cs : List Criterion} : (xs : List Xml) → {rs : List Rule} → (rulesFromXml cs xs = .ok rs ↔
    xs.length = rs.length ∧ ∀ (i : Nat) y r, xs[i]? = some y → rs[i]? = some r → DeclaresRule cs y r)
  | [], rs => by
    simp only [rulesFromXml, Out.ok.injEq]
    constructor
    · rintro rfl; simp
    · rintro ⟨h, _⟩; exact (List.length_eq_zero_iff.1 h.symm).symm
  | x :: xs, rs => by
    simp only [rulesFromXml, obind_ok]
    constructor
    · rintro ⟨r, h1, rs', h2, h3⟩
      simp only [Out.ok.injEq] at h3
      subst h3
      obtain ⟨k1, k2⟩ := (rulesFromXml_iff xs).1 h2
      refine ⟨by simp [k1], ?_⟩
      intro i y q hy hq
      cases i with
      | zero =>
        simp only [List.getElem?_cons_zero, Option.some.injEq] at hy hq
        subst hy hq
        exact (ruleFromXml_iff x).1 h1
      | succ i =>
        simp only [List.getElem?_cons_succ] at hy hq
        exact k2 i y q hy hq
    · rintro ⟨hl, hr⟩
      cases rs with
      | nil => simp at hl
      | cons r rs =>
        refine ⟨r, (ruleFromXml_iff x).2 (hr 0 x r (by simp) (by simp)), rs, (rulesFromXml_iff xs).2 ⟨by simpa using hl, ?_⟩, rfl⟩
        intro i y q hy hq
        exact hr (i + 1) y q (by simpa using hy) (by simpa using hq)
end

theorem Config.fromXml_declares {cs : List Criterion} {n : Nat} {x : Xml} (ht : x.tag = s "Configuration") {c : Config}
    (h : Config.fromXml cs n x = .ok c) : DeclaresConfig cs x c := by
  have hn := (configFromXml_spec h).2.1
  refine ⟨ht, hn, ?_⟩
  unfold Config.fromXml at h
  rw [obind_ok] at h
  obtain ⟨rs, h1, h2⟩ := h
  rw [rulesFromXml_iff] at h1
  split at h2
  · simp only [Out.ok.injEq] at h2
    subst h2
    exact List.length_eq_zero_iff.1 (by simpa using h1.1)
  · rename_i all ch rs
    simp only [Out.ok.injEq] at h2
    subst h2
    cases hx : x.children with
    | nil => rw [hx] at h1; simp at h1
    | cons y ys => exact ⟨y, rfl, h1.2 0 y _ (by simp [hx]) (by simp)⟩
  · simp at h2

theorem configsFromXml_declares {cs : List Criterion} {xs : List Xml} {n : Nat} {l : List Config}
    (h : configsFromXml cs n xs = .ok l) :
    xs.length = l.length ∧ ∀ (k : Nat) z c, xs[k]? = some z → l[k]? = some c → DeclaresConfig cs z c := by
  induction xs generalizing n l with
  | nil => simp only [configsFromXml, Out.ok.injEq] at h; subst h; simp
  | cons x xs ih =>
    simp only [configsFromXml] at h
    split at h
    · rename_i ht
      simp only [obind_ok] at h
      obtain ⟨c, h1, l', h2, h3⟩ := h
      simp only [Out.ok.injEq] at h3
      subst h3
      obtain ⟨k1, k2⟩ := ih h2
      refine ⟨by simp [k1], ?_⟩
      intro k z c' hz hc'
      cases k with
      | zero =>
        simp only [List.getElem?_cons_zero, Option.some.injEq] at hz hc'
        subst hz hc'
        exact Config.fromXml_declares ht h1
      | succ k => exact k2 k z c' (by simpa using hz) (by simpa using hc')
    · split at h <;> simp at h

theorem Xml.child?_none {x : Xml} {tag : Str} (h : x.child? tag = none) : ∀ z ∈ x.children, z.tag ≠ tag := by
  intro z hz
  simpa using (List.find?_eq_none.1 h) z hz

theorem Xml.childOrLast_part {x : Xml} {tag : Str} {y : Xml} (h : x.childOrLast tag = some y) : Part x tag y := by
  unfold Xml.childOrLast at h
  split at h
  · rename_i z hz
    simp only [Option.some.injEq] at h
    subst h
    obtain ⟨h1, pre, post, h2, h3⟩ := List.find?_eq_some_iff_append.1 hz
    exact .inl ⟨pre, post, h2, by simpa using h1, fun w hw => by simpa using h3 w hw⟩
  · rename_i hz
    exact .inr ⟨Xml.child?_none hz, h⟩

theorem Xml.settingsList_eq (withSettings : Bool) (x : Xml) : x.settingsList withSettings = settingsElems withSettings x := by
  unfold Xml.settingsList settingsElems Xml.child?
  cases withSettings with
  | false => rfl
  | true =>
    simp only [Bool.not_true, Bool.false_eq_true, if_false, if_true]
    rw [← List.head?_filter]
    cases x.children.filter (fun y => y.tag == s "Settings") <;> rfl

theorem Domain.addElem_some {root : Elem} {xs : List Xml} {d : Domain} {att : Attached} {r : Domain × Attached}
    (h : elemsFromXml root xs d att = .ok r) : ∀ z ∈ xs, ∃ p, root.locate (z.attrText (s "Path")) = some p := by
  induction xs generalizing d att with
  | nil => simp
  | cons x xs ih =>
    simp only [elemsFromXml] at h
    split at h
    · simp at h
    rename_i p hp
    rw [obind_ok] at h
    obtain ⟨q, _, h2⟩ := h
    intro z hz
    rcases List.mem_cons.1 hz with rfl | hz
    · exact ⟨p, hp⟩
    · exact ih h2 z hz

/-- The head of the domain that is read. -/
theorem Domain.fromXml_declares {root : Elem} (wf : root.WF) {rd : Reader} {cs : List Criterion} {withSettings : Bool}
    {n : Nat} {att : Attached} (hatt : ∀ p, (p, n) ∉ att) {aware : Bool} {x : Xml} {d : Domain} {att' : Attached} {m : Nat}
    (ht : x.tag = s "ConfigurableDomain") (ha : x.sequenceAware = some aware)
    (h : Domain.fromXml root rd cs withSettings n att aware x = .ok (d, att', m)) : DeclaresDomain root cs x d := by
  obtain ⟨k1, k2, k3, k4, k5, _⟩ := Domain.fromXml_head wf hatt h
  obtain ⟨confs, els, configs, d0, gs, gv, st⟩ := Domain.fromXml_stages wf hatt h
  obtain ⟨c1, c2, c3, c4⟩ := configsFromXml_spec st.hConfigs
  have hb : (Domain.blank n aware x configs).Loading root := Domain.blank_loading (by rw [c1]; exact List.nodup_range') c3
  obtain ⟨l0, hh, ha', hfrom, hto, g0, hg, hs, _⟩ := (elemsFromXml_spec wf (xs := els.children) hb (att := att)
    (by intro p; simp [Domain.blank, Domain.new, hatt])).2 d0 att' st.hElems
  refine ⟨ht, k3, ?_, ⟨confs, Xml.childOrLast_part st.hConfs, ?_⟩, ⟨els, Xml.childOrLast_part st.hEls,
    Domain.addElem_some st.hElems, ?_⟩, k5⟩
  · rw [k4]
    unfold Xml.sequenceAware at ha
    split at ha
    · rename_i hn
      simp only [Option.some.injEq] at ha
      subst ha
      simp [hn]
    · rename_i t hn
      rw [hn]
      simp [ha]
  · have hconf : d.configs = configs.map fun c => gv (gs (g0 c)) := by
      rw [st.result]
      show d0.configs.map _ = _
      rw [hg, List.map_map]
      rfl
    have hsame : ∀ c ∈ configs, c.Same (gv (gs (g0 c))) := by
      intro c hc
      have hc0 : g0 c ∈ d0.configs := by rw [hg]; exact List.mem_map.2 ⟨c, hc, rfl⟩
      exact ((hs c hc).trans (st.settled.same _ hc0)).trans (st.valSame _ hc0)
    obtain ⟨e1, e2⟩ := configsFromXml_declares st.hConfigs
    refine ⟨by rw [hconf, List.length_map]; exact e1, ?_⟩
    intro k z c hz hc
    rw [hconf, List.getElem?_map] at hc
    cases hc0 : configs[k]? with
    | none => rw [hc0] at hc; simp at hc
    | some c0 =>
      rw [hc0] at hc
      simp only [Option.map_some, Option.some.injEq] at hc
      obtain ⟨f1, f2, f3⟩ := e2 k z c0 hz hc0
      obtain ⟨s1, s2, s3⟩ := hsame c0 (List.mem_of_getElem? hc0)
      refine ⟨f1, by rw [← hc, s2, f2], ?_⟩
      rw [← hc, s3]
      exact f3
  · have hde : d.elems = d0.elems := by rw [st.result]
    rw [hde]
    have hfrom' : ∀ p ∈ d0.elems, ∃ z ∈ els.children, root.locate (z.attrText (s "Path")) = some p := by
      intro p hp
      rcases hfrom p hp with h | h
      · simp [Domain.blank, Domain.new] at h
      · exact h
    intro p
    constructor
    · intro hp
      refine ⟨hfrom' p hp, ?_⟩
      intro z hz q hq hpre
      obtain ⟨r, hr, hrq⟩ := hto q (.inr ⟨z, hz, hq⟩)
      have := l0.antichain r hr p hp (hrq.trans hpre)
      subst this
      exact hpre.eq_of_length_le hrq.length_le
    · rintro ⟨⟨z, hz, hl⟩, hmin⟩
      obtain ⟨q, hq, hqp⟩ := hto p (.inr ⟨z, hz, hl⟩)
      obtain ⟨w, hw, hlw⟩ := hfrom' q hq
      rw [← hmin w hw q hlw hqp]
      exact hq

theorem Xml.settings_tag (x : Xml) : x.settings.tag = x.tag := by cases x; simp [Xml.settings, XElem.tag, Xml.tag]

/-- The area read from an element holds what the element gives. -/
theorem Area.fromXml_gives {root : Elem} (wf : root.WF) (fd : root.FieldsDisjoint) {rd : Reader} {a : Area}
    (ha : a.Sized root) {x : Xml} {a' : Area} (h : a.fromXml root rd x = .ok a') :
    GivesSettings root rd x a.elem a' := by
  have hsp := (Area.fromXml_spec wf ha).2 a' h
  obtain ⟨e, he, hl⟩ := ha
  obtain ⟨off, ho⟩ := Elem.offset_of_at (off := 0) he
  have hb : ∀ y raw, e.importXml rd false off off y raw a.board = e.importXml rd false 0 0 y raw a.board := by
    intro y raw
    rw [Elem.importXml_base e (Nat.le_refl off), Nat.sub_self]
  simp only [Area.fromXml, he, ho] at h
  split at h
  swap
  · simp at h
  rename_i y hy
  split at h
  swap
  · simp at h
  rename_i hm
  simp only [Bool.and_eq_true, beq_iff_eq] at hm
  rw [hb] at h
  split at h
  · rename_i raw b hres
    simp only [Out.ok.injEq] at h
    subst h
    obtain ⟨h1, _, h3⟩ := Elem.import_sets e (fun q f hq hf => Elem.param_no_children wf he q f hq hf)
      (fun q f o h => Elem.param_bits wf he h) (Elem.params_disjoint wf fd he) hres
    obtain ⟨_, ⟨e', he', hl'⟩, _⟩ := hsp
    rw [he] at he'
    cases he'
    refine ⟨e, y, he, hy, h1, ?_, hm.2, rfl, hl', rfl, a.board, hl, ?_⟩
    · have := hm.1
      rw [EKind.acceptsTag_iff] at this
      exact this
    · intro q f o hq hf hoq
      obtain ⟨w, raw', b1, g1, g2, g3, g4, g5⟩ := h3 q f o ⟨hq, hf, hoq⟩
      exact ⟨w, raw', b1, g1, fun hv => by rw [g2 hv]; simp, g3, g4, g5⟩
  · simp at h
  · simp at h

/-- The names of the configurations are as the schema demands: none is empty and none is given twice. -/
theorem Domain.findConfig_named {d : Domain} (hn : (d.configs.map Config.name).Nodup) (hne : ∀ c ∈ d.configs, c.name ≠ [])
    {c : Config} (hc : c ∈ d.configs) : d.findConfig c.pathName = some c := by
  have hp : ∀ c ∈ d.configs, c.pathName = c.name := fun c hc => by simp [Config.pathName, hne c hc]
  unfold Domain.findConfig
  cases hf : d.configs.find? (fun x => x.pathName == c.pathName) with
  | none =>
    rw [List.find?_eq_none] at hf
    exact absurd (BEq.rfl (a := c.pathName)) (hf c hc)
  | some c' =>
    have h1 := List.mem_of_find?_eq_some hf
    have h2 : c'.pathName = c.pathName := by simpa using List.find?_some hf
    rw [hp c' h1, hp c hc] at h2
    rw [nodup_map_inj (f := Config.name) hn h1 hc h2]

theorem firstValid_given {p : Pos} {cs : List Config} {g : Config → Config} {f : Config → Bool}
    (h : ∀ c ∈ cs, ∃ b, (g c).area? p = some b ∧ b.valid = f c) :
    firstValid p (cs.map g) = match cs.find? f with | none => none | some c => (g c).area? p := by
  induction cs with
  | nil => rfl
  | cons c cs ih =>
    obtain ⟨b, hb, hv⟩ := h c (by simp)
    have ih := ih (fun c' hc' => h c' (by simp [hc']))
    unfold firstValid at ih ⊢
    simp only [List.map_cons, List.filterMap_cons, hb, List.find?_cons, hv]
    cases hf : f c with
    | true => simp [hb]
    | false => simpa using ih

/-- What the document gives after the settings are read. -/
theorem Domain.Stages.core {root : Elem} (wf : root.WF) (fd : root.FieldsDisjoint) {rd : Reader}
    {cs : List Criterion} {withSettings : Bool} {n : Nat} {att : Attached} (hatt : ∀ p, (p, n) ∉ att) {aware : Bool} {x : Xml}
    {d : Domain} {att' : Attached} {m : Nat} {confs els : Xml} {configs : List Config} {d0 : Domain} {gs gv : Config → Config}
    (st : Domain.Stages root rd cs withSettings n att aware x d att' m confs els configs d0 gs gv)
    (hn : (confs.children.map Xml.nameAttr).Nodup) (hne : ∀ y ∈ confs.children, y.nameAttr ≠ []) :
    (d0.configs.map Config.name).Nodup ∧ (∀ c ∈ d0.configs, c.name ≠ []) ∧
    (∀ c ∈ d0.configs, ∀ p ∈ d0.elems, ∀ path, root.path p = some path → ∃ b, (gs c).area? p = some b ∧
      b.valid = (givenFor (settingsElems withSettings x) c.name path).isSome ∧
      ∀ z, givenFor (settingsElems withSettings x) c.name path = some z → GivesSettings root rd z p b) := by
  obtain ⟨c1, c2, c3, c4⟩ := configsFromXml_spec st.hConfigs
  have hb : (Domain.blank n aware x configs).Loading root := Domain.blank_loading (by rw [c1]; exact List.nodup_range') c3
  obtain ⟨l0, hh, ha', hfrom, hto, g0, hg, hs, hinv⟩ := (elemsFromXml_spec wf (xs := els.children) hb (att := att)
    (by intro p; simp [Domain.blank, Domain.new, hatt])).2 d0 att' st.hElems
  have hg' : d0.configs = configs.map g0 := hg
  have hnames : d0.configs.map Config.name = confs.children.map Xml.nameAttr := by
    rw [hg', List.map_map, ← c2]
    exact List.map_congr_left fun c hc => (hs c hc).2.1
  have hnd : (d0.configs.map Config.name).Nodup := by rw [hnames]; exact hn
  have hnne : ∀ c ∈ d0.configs, c.name ≠ [] := by
    intro c hc
    have : c.name ∈ d0.configs.map Config.name := List.mem_map.2 ⟨c, hc, rfl⟩
    rw [hnames] at this
    obtain ⟨y, hy, he⟩ := List.mem_map.1 this
    rw [← he]
    exact hne y hy
  refine ⟨hnd, hnne, ?_⟩
  intro c hc p hp path hpath
  have hpn : c.pathName = c.name := by simp [Config.pathName, hnne c hc]
  obtain ⟨u, hu, _, hue⟩ := (l0.ok c hc).area hp
  have hgiv := st.settled.given c hc (Domain.findConfig_named hnd hnne hc) p u path hu hpath
  rw [hpn, Xml.settingsList_eq] at hgiv
  unfold givenFor
  cases hl : lastWith path (settingsOf c.name (settingsElems withSettings x)) with
  | some z =>
    rw [hl] at hgiv
    obtain ⟨a0, a', g1, g2, g3, g4⟩ := hgiv
    refine ⟨a', g4, by simpa using ((Area.fromXml_spec wf g2).2 a' g3).2.2, ?_⟩
    intro z' hz'
    simp only [Option.some.injEq] at hz'
    subst hz'
    rw [← g1]
    exact Area.fromXml_gives wf fd g2 g3
  | none =>
    rw [hl] at hgiv
    refine ⟨u, hgiv, ?_, by simp⟩
    rw [hg'] at hc
    obtain ⟨c0, hc0, rfl⟩ := List.mem_map.1 hc
    have := hinv c0 hc0 (by rw [c3 c0 hc0]; simp) u (((l0.ok (g0 c0) (by rw [hg']; exact hc)).area_iff.1 hu).1)
    simpa using this

/-- The settings of the domain that is read, after a further validation of those not given. -/
theorem Domain.fromXml_settings {root : Elem} (wf : root.WF) (fd : root.FieldsDisjoint) {rd : Reader}
    {cs : List Criterion} {withSettings : Bool}
    {n : Nat} {att : Attached} (hatt : ∀ p, (p, n) ∉ att) {aware : Bool} {x : Xml} {d : Domain} {att' : Attached} {m : Nat}
    (h : Domain.fromXml root rd cs withSettings n att aware x = .ok (d, att', m))
    (hn : (d.configs.map Config.name).Nodup) (hne : ∀ c ∈ d.configs, c.name ≠ [])
    {g : Config → Config} (hs : ∀ c ∈ d.configs, c.Same (g c)) (main : Option Board)
    (hv : ∀ c ∈ d.configs, ∀ p a, c.area? p = some a → ∃ a', (g c).area? p = some a' ∧ (a.valid = true → a' = a) ∧
      (a.valid = false → NotGiven root p a' main)) :
    DeclaresSettings root rd main (settingsElems withSettings x) { d with configs := d.configs.map g } := by
  obtain ⟨_, _, _, _, _, _, _, _, _, confs', hconfs', hnames⟩ := Domain.fromXml_head wf hatt h
  obtain ⟨confs, els, configs, d0, gs, gv, st⟩ := Domain.fromXml_stages wf hatt h
  have : confs' = confs := by
    have := hconfs'.symm.trans st.hConfs
    simpa using this
  subst this
  obtain ⟨hnd, hnne, core⟩ := st.core wf fd hatt (by rw [← hnames]; exact hn) (by
    intro y hy
    have : y.nameAttr ∈ confs'.children.map Xml.nameAttr := List.mem_map.2 ⟨y, hy, rfl⟩
    rw [← hnames] at this
    obtain ⟨c, hc, he⟩ := List.mem_map.1 this
    rw [← he]
    exact hne c hc)
  have hdc : d.configs = d0.configs.map fun c => gv (gs c) := by rw [st.result]
  have hde : d.elems = d0.elems := by rw [st.result]
  have hname : ∀ c ∈ d0.configs, (g (gv (gs c))).name = c.name := by
    intro c hc
    have h1 := hs (gv (gs c)) (by rw [hdc]; exact List.mem_map.2 ⟨c, hc, rfl⟩)
    rw [h1.2.1, (st.valSame c hc).2.1, (st.settled.same c hc).2.1]
  have hfinal : ∀ c ∈ d0.configs, ∀ p ∈ d0.elems, ∀ path, root.path p = some path →
      ∃ a', (g (gv (gs c))).area? p = some a' ∧ ∃ b, (gs c).area? p = some b ∧
        (b.valid = true → a' = b) ∧ (b.valid = false →
          match d0.configs.find? (fun c' => (givenFor (settingsElems withSettings x) c'.name path).isSome) with
          | some c' => (gs c').area? p = some a' ∧ a'.valid = true
          | none => NotGiven root p a' main) := by
    intro c hc p hp path hpath
    obtain ⟨b, hb1, hb2, _⟩ := core c hc p hp path hpath
    have hval := st.validated c hc p hp b hb1
    obtain ⟨a', ha1, ha2, ha3⟩ := hv (gv (gs c)) (by rw [hdc]; exact List.mem_map.2 ⟨c, hc, rfl⟩) p _ hval
    refine ⟨a', ha1, b, hb1, ?_, ?_⟩
    · intro hbv
      rw [if_pos hbv] at ha2
      exact ha2 hbv
    · intro hbv
      rw [if_neg (by simp [hbv])] at ha2 ha3
      have hfg := firstValid_given (p := p) (cs := d0.configs) (g := gs)
        (f := fun c' => (givenFor (settingsElems withSettings x) c'.name path).isSome) (fun c' hc' => by
          obtain ⟨b', k1, k2, _⟩ := core c' hc' p hp path hpath
          exact ⟨b', k1, k2⟩)
      rw [hfg] at ha2 ha3
      cases hf : d0.configs.find? (fun c' => (givenFor (settingsElems withSettings x) c'.name path).isSome) with
      | none =>
        rw [hf] at ha3
        exact ha3 (by simpa using hbv)
      | some c' =>
        have hc' := List.mem_of_find?_eq_some hf
        have hg' := List.find?_some hf
        obtain ⟨b', k1, k2, _⟩ := core c' hc' p hp path hpath
        simp only [hf, k1, Option.getD_some] at ha2 ⊢
        have hbv' : b'.valid = true := by rw [k2]; exact hg'
        have := ha2 hbv'
        rw [this]
        exact ⟨rfl, hbv'⟩
  have hok : ∀ c ∈ d0.configs, ∀ p a, (g (gv (gs c))).area? p = some a → a ∈ (g (gv (gs c))).areas ∧ a.elem = p := by
    intro c hc p a ha
    unfold Config.area? at ha
    exact ⟨List.mem_of_find?_eq_some ha, by simpa using List.find?_some ha⟩
  refine ⟨?_, ?_⟩
  · intro y hy
    rw [← Xml.settingsList_eq] at hy
    constructor
    · obtain ⟨c, hc⟩ := st.settled.named y hy
      obtain ⟨h1, h2⟩ := Domain.findConfig_mem hc
      refine ⟨g (gv (gs c)), ?_, ?_⟩
      · show _ ∈ d.configs.map g
        rw [hdc, List.map_map]
        exact List.mem_map.2 ⟨c, h1, rfl⟩
      · rw [hname c h1, ← h2]
        simp [Config.pathName, hnne c h1]
    · intro z hz
      obtain ⟨p, hp, he⟩ := st.settled.paths y hy z hz
      exact ⟨p, by show p ∈ d.elems; rw [hde]; exact hp, he⟩
  · intro c hc p hp path hpath
    have hc' : c ∈ d.configs.map g := hc
    rw [hdc, List.map_map] at hc'
    obtain ⟨c0, hc0, rfl⟩ := List.mem_map.1 hc'
    have hp0 : p ∈ d0.elems := by rw [← hde]; exact hp
    obtain ⟨a', ha1, b, hb1, ha2, ha3⟩ := hfinal c0 hc0 p hp0 path hpath
    obtain ⟨b', hb1', hb2, hb3⟩ := core c0 hc0 p hp0 path hpath
    rw [hb1] at hb1'
    cases hb1'
    refine ⟨a', (hok c0 hc0 p a' ha1).1, (hok c0 hc0 p a' ha1).2, ?_⟩
    show match givenFor _ (g (gv (gs c0))).name path with | some z => _ | none => _
    rw [hname c0 hc0]
    cases hgv : givenFor (settingsElems withSettings x) c0.name path with
    | some z =>
      rw [hgv] at hb2
      rw [ha2 (by simpa using hb2)]
      exact hb3 z hgv
    | none =>
      rw [hgv] at hb2
      have ha3 := ha3 (by simpa using hb2)
      have hfind : (d.configs.map g).find? (fun c' => (givenFor (settingsElems withSettings x) c'.name path).isSome) =
          (d0.configs.find? (fun c' => (givenFor (settingsElems withSettings x) c'.name path).isSome)).map
            fun c => g (gv (gs c)) := by
        rw [hdc, List.map_map]
        have : ∀ l : List Config, (∀ c ∈ l, c ∈ d0.configs) →
            (l.map (g ∘ fun c => gv (gs c))).find? (fun c' => (givenFor (settingsElems withSettings x) c'.name path).isSome) =
            (l.find? (fun c' => (givenFor (settingsElems withSettings x) c'.name path).isSome)).map fun c => g (gv (gs c)) := by
          intro l hl
          induction l with
          | nil => rfl
          | cons c l ih =>
            have ih := ih fun c' hc' => hl c' (by simp [hc'])
            simp only [List.map_cons, List.find?_cons, Function.comp, hname c (hl c (by simp))]
            split
            · rfl
            · exact ih
        exact this _ fun c hc => hc
      simp only [hfind]
      cases hf : d0.configs.find? (fun c' => (givenFor (settingsElems withSettings x) c'.name path).isSome) with
      | none =>
        rw [hf] at ha3
        exact ha3
      | some c' =>
        rw [hf] at ha3
        have hc'm := List.mem_of_find?_eq_some hf
        obtain ⟨a'', hq1, b'', hq2, hq3, _⟩ := hfinal c' hc'm p hp0 path hpath
        rw [ha3.1] at hq2
        cases hq2
        rw [hq3 ha3.2] at hq1
        exact (hok c' hc'm p a' hq1).1

theorem Spec.DeclaresDomain.mapSame {root : Elem} {cs : List Criterion} {x : Xml} {d : Domain}
    (h : DeclaresDomain root cs x d) {g : Config → Config} (hs : ∀ c ∈ d.configs, c.Same (g c)) :
    DeclaresDomain root cs x { d with configs := d.configs.map g } := by
  obtain ⟨h1, h2, h3, ⟨y, h4, h5, h6⟩, h7, h8⟩ := h
  refine ⟨h1, h2, h3, ⟨y, h4, by simpa using h5, ?_⟩, h7, h8⟩
  intro k z c hz hc
  simp only [List.getElem?_map, Option.map_eq_some_iff] at hc
  obtain ⟨c0, hc0, rfl⟩ := hc
  have h0 := h6 k z c0 hz hc0
  obtain ⟨s1, s2, s3⟩ := hs c0 (List.mem_of_getElem? hc0)
  unfold DeclaresConfig at h0 ⊢
  rw [s2, s3]
  exact h0

theorem domainsFromXml_tags {root : Elem} {rd : Reader} {cs : List Criterion} {withSettings : Bool}
    {xs : List Xml} {n : Nat} {att : Attached} {r : List Domain × Attached × Nat}
    (h : domainsFromXml root rd cs withSettings xs n att = .ok r) : ∀ x ∈ xs, x.tag = s "ConfigurableDomain" := by
  induction xs generalizing n att r with
  | nil => simp
  | cons x xs ih =>
    simp only [domainsFromXml] at h
    split at h
    · rename_i ht
      split at h
      · simp at h
      · obtain ⟨q, _, h⟩ := obind_ok.1 h
        obtain ⟨q', hq, h⟩ := obind_ok.1 h
        intro y hy
        rcases List.mem_cons.1 hy with rfl | hy
        · exact ht
        · exact ih hq y hy
    · split at h <;> simp at h

end PF
