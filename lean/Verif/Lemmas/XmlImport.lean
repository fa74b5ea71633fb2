import Verif.Spec.XmlDomains
import Verif.Lemmas.DomainInv
import Verif.Lemmas.XmlSafe

/-! # What the import of domains does to domains -/

namespace PF
open Spec

theorem obind_ok {α β : Type} {x : Out α} {f : α → Out β} {b : β} :
    x.bind f = .ok b ↔ ∃ a, x = .ok a ∧ f a = .ok b := by
  cases x <;> simp [Out.bind]

theorem obind_abort {α β : Type} {x : Out α} {f : α → Out β} :
    x.bind f = .abort ↔ x = .abort ∨ ∃ a, x = .ok a ∧ f a = .abort := by
  cases x <;> simp [Out.bind]

/-! ## Rules and configurations -/

theorem critFromXml_wt {cs : List Criterion} {x : Xml} {r : Rule} (h : critFromXml cs x = .ok r) : WellTyped cs r := by
  unfold critFromXml at h
  split at h; · simp at h
  split at h; · simp at h
  rename_i c hc
  split at h
  · rename_i verb hverb
    split at h; · simp at h
    rename_i v hv
    simp only [Out.ok.injEq] at h
    subst h
    exact .crit _ _ _ c hc (setMatchesWhen_ok hverb).2 (numerical_known hv)
  · simp at h

mutual
theorem ruleFromXml_wt {cs : List Criterion} : (x : Xml) → {r : Rule} → ruleFromXml cs x = .ok r → WellTyped cs r
  | .mk tag attrs text ch, r, h => by
    simp only [ruleFromXml] at h
    split at h
    · rw [obind_ok] at h
      obtain ⟨rs, h1, h2⟩ := h
      simp only [Out.ok.injEq] at h2
      subst h2
      exact .compound _ _ (rulesFromXml_wt ch h1)
    · split at h
      · exact critFromXml_wt h
      · split at h <;> simp at h
theorem rulesFromXml_wt {cs : List Criterion} : (xs : List Xml) → {rs : List Rule} → rulesFromXml cs xs = .ok rs →
    ∀ r ∈ rs, WellTyped cs r
  | [], rs, h => by simp only [rulesFromXml, Out.ok.injEq] at h; subst h; simp
  | x :: xs, rs, h => by
    simp only [rulesFromXml, obind_ok] at h
    obtain ⟨r, h1, rs', h2, h3⟩ := h
    simp only [Out.ok.injEq] at h3
    subst h3
    intro q hq
    rcases List.mem_cons.1 hq with rfl | hq
    · exact ruleFromXml_wt x h1
    · exact rulesFromXml_wt xs h2 q hq
end

theorem configFromXml_spec {cs : List Criterion} {n : Nat} {x : Xml} {c : Config} (h : Config.fromXml cs n x = .ok c) :
    c.id = n ∧ c.name = x.nameAttr ∧ c.areas = [] ∧ (∀ r, c.rule = some r → RuleOK cs r) := by
  unfold Config.fromXml at h
  rw [obind_ok] at h
  obtain ⟨rs, h1, h2⟩ := h
  have hw := rulesFromXml_wt _ h1
  split at h2
  · simp only [Out.ok.injEq] at h2; subst h2; simp
  · simp only [Out.ok.injEq] at h2; subst h2
    refine ⟨rfl, rfl, rfl, fun r hr => ?_⟩
    simp only [Option.some.injEq] at hr
    subst hr
    exact ⟨hw _ (by simp), _, _, rfl⟩
  · simp at h2

theorem configsFromXml_spec {cs : List Criterion} {xs : List Xml} {n : Nat} {l : List Config}
    (h : configsFromXml cs n xs = .ok l) :
    l.map Config.id = List.range' n l.length ∧ l.map Config.name = xs.map Xml.nameAttr ∧ (∀ c ∈ l, c.areas = []) ∧
      RulesOK cs l := by
  induction xs generalizing n l with
  | nil => simp only [configsFromXml, Out.ok.injEq] at h; subst h; simp [RulesOK]
  | cons x xs ih =>
    simp only [configsFromXml] at h
    split at h
    · simp only [obind_ok] at h
      obtain ⟨c, h1, l', h2, h3⟩ := h
      simp only [Out.ok.injEq] at h3
      subst h3
      obtain ⟨g1, g2, g3, g4⟩ := configFromXml_spec h1
      obtain ⟨k1, k2, k3, k4⟩ := ih h2
      refine ⟨?_, ?_, ?_, ?_⟩
      · simp [g1, k1, List.range'_succ]
      · simp [g2, k2]
      · intro c' hc'
        rcases List.mem_cons.1 hc' with rfl | hc'
        · exact g3
        · exact k3 c' hc'
      · intro c' hc'
        rcases List.mem_cons.1 hc' with rfl | hc'
        · exact g4
        · exact k4 c' hc'
    · split at h <;> simp at h

/-! ## Elements -/

/-- Paths of elements found by a lookup designate them. -/
theorem Elem.locate_path {root : Elem} {t path : Str} {p : Pos} (h : root.locate t = some p) (hp : root.path p = some path) :
    root.locate path = some p := by
  unfold Elem.locate at h
  split at h
  · simp at h
  split at h
  · simp at h
  rename_i n ns htok
  split at h
  · simp at h
  rename_i hn
  simp only [ne_eq, Decidable.not_not] at hn
  obtain ⟨f, h1, h2⟩ := Elem.findDescendant_iff root ns p h
  obtain ⟨ps, hps⟩ := pieces_exists ['/'] t
  have htok' := tokenize_true_of_pieces hps
  rw [htok] at htok'
  have hfree : ∀ w ∈ n :: ns, w ≠ [] ∧ ∀ c ∈ w, c ∉ ['/'] := by
    intro w hw
    rw [htok'] at hw
    simp only [ne_eq, decide_not, List.mem_filter, Bool.not_eq_eq_eq_not, Bool.not_true, decide_eq_false_iff_not] at hw
    exact ⟨hw.2, pieces_free hps w hw.1⟩
  have hroot : root.pathName = n := by
    have : root.name ≠ [] := by rw [← hn]; exact (hfree n (by simp)).1
    simp [Elem.pathName, this, hn]
  rw [Elem.path_eq h1, h2, hroot] at hp
  rw [slashes_join _ (by simp)] at hp
  simp only [Option.some.injEq] at hp
  subst hp
  have hp := pieces_join ['/'] '/' (by simp) ([] :: n :: ns) (by simp) (by
    intro w hw
    rcases List.mem_cons.1 hw with rfl | hw
    · simp
    · exact (hfree w hw).2)
  have htok2 : tokenize ['/'] true (joinWith '/' ([] :: n :: ns)) = n :: ns := by
    rw [tokenize_true_of_pieces hp, List.filter_cons]
    simp only [ne_eq, not_true_eq_false, decide_false]
    rw [if_neg (by simp), List.filter_eq_self]
    intro w hw
    simpa using (hfree w hw).1
  unfold Elem.locate
  rw [htok2]
  simp only [joinWith, List.nil_append, List.head?_cons, ne_eq, not_true_eq_false, if_false, hn, h]

/-- The elements were found by their paths. -/
def Located (root : Elem) (E : List Pos) : Prop := ∀ p ∈ E, ∃ t, root.locate t = some p

theorem Located.inj {root : Elem} {E : List Pos} (h : Located root E) {p q : Pos} (hp : p ∈ E) (hq : q ∈ E)
    {path : Str} (h1 : root.path p = some path) (h2 : root.path q = some path) : p = q := by
  obtain ⟨t, ht⟩ := h p hp
  obtain ⟨u, hu⟩ := h q hq
  have := (Elem.locate_path ht h1).symm.trans (Elem.locate_path hu h2)
  simpa using this

/-- What holds of a domain while it is read from XML. -/
structure Domain.Loading (root : Elem) (d : Domain) : Prop extends Domain.Mid root d where
  antichain : ∀ p ∈ d.elems, ∀ q ∈ d.elems, p <+: q → p = q
  located : Located root d.elems

theorem elemsFromXml_spec {root : Elem} (wf : root.WF) {xs : List Xml} {d : Domain} (h : d.Loading root) {att : Attached}
    (ha : ∀ p, (p, d.id) ∈ att ↔ p ∈ d.elems) :
    elemsFromXml root xs d att ≠ .abort ∧
    ∀ d' att', elemsFromXml root xs d att = .ok (d', att') → d'.Loading root ∧ d.SameHead d' ∧
      (∀ p i, (p, i) ∈ att' ↔ if i = d.id then p ∈ d'.elems else (p, i) ∈ att) ∧
      (∀ p, p ∈ d'.elems → p ∈ d.elems ∨ ∃ x ∈ xs, root.locate (x.attrText (s "Path")) = some p) ∧
      (∀ p, (p ∈ d.elems ∨ ∃ x ∈ xs, root.locate (x.attrText (s "Path")) = some p) → ∃ q ∈ d'.elems, q <+: p) ∧
      ∃ g : Config → Config, d'.configs = d.configs.map g ∧ (∀ c ∈ d.configs, c.Same (g c)) ∧
        ∀ c ∈ d.configs, (∀ a ∈ c.areas, a.valid = false) → ∀ a ∈ (g c).areas, a.valid = false := by
  induction xs generalizing d att with
  | nil =>
    refine ⟨by simp [elemsFromXml], ?_⟩
    intro d' att' h'
    simp only [elemsFromXml, Out.ok.injEq, Prod.mk.injEq] at h'
    obtain ⟨rfl, rfl⟩ := h'
    refine ⟨h, ⟨rfl, rfl, rfl, rfl⟩, ?_, fun p hp => .inl hp, ?_, fun c => c, by simp, fun c _ => .refl c, fun _ _ h => h⟩
    · intro p i
      split
      · rename_i hi; subst hi; exact ha p
      · rfl
    · intro p hp
      rcases hp with hp | ⟨x, hx, _⟩
      · exact ⟨p, hp, List.prefix_refl _⟩
      · simp at hx
  | cons x xs ih =>
    simp only [elemsFromXml]
    split
    · simp
    rename_i p hp
    obtain ⟨e, he⟩ := Elem.locate_at hp
    by_cases hm : p ∈ d.elems
    · simp [Domain.addElem, hm, Out.bind]
    by_cases hb : att.belongsTo p d.id = true
    · simp [Domain.addElem, hm, hb, Out.bind]
    have hanc : ∀ q ∈ d.elems, ¬ q <+: p := by
      intro q hq hqp
      apply hb
      unfold Attached.belongsTo
      rw [List.any_eq_true]
      exact ⟨(q, d.id), (ha q).2 hq, by simp [hqp]⟩
    obtain ⟨d1, att1, h1, h2, h3, h4, h5, g, h6, h7⟩ := Domain.doAdd_spec wf h.toMid (att := att) hm he (main := none)
      (by simp)
    have hadd : d.addElem root att p none = .ok (d1, att1) := by
      unfold Domain.addElem
      rw [if_neg hm, if_neg hb, h1]
    rw [hadd]
    simp only [Out.bind]
    have hl1 : d1.Loading root := by
      refine ⟨h2, ?_, ?_⟩
      · intro a ha b hb hab
        rw [h3] at ha hb
        simp only [List.mem_append, List.mem_filter, List.mem_cons, List.not_mem_nil, or_false, decide_eq_true_eq,
          Pos.isDescendantOf_iff, not_and, ne_eq, Decidable.not_not] at ha hb
        rcases ha with ⟨ha, ha'⟩ | rfl <;> rcases hb with ⟨hb, hb'⟩ | rfl
        · exact h.antichain a ha b hb hab
        · exact absurd hab (hanc a ha)
        · exact (hb' hab).symm
        · rfl
      · intro q hq
        rw [h3] at hq
        simp only [List.mem_append, List.mem_filter, List.mem_cons, List.not_mem_nil, or_false] at hq
        rcases hq with ⟨hq, _⟩ | rfl
        · exact h.located q hq
        · exact ⟨_, hp⟩
    have hatt : ∀ q i, (q, i) ∈ att1 ↔ if i = d.id then q ∈ d1.elems else (q, i) ∈ att := by
      intro q i
      rw [h5, h3]
      by_cases hi : i = d.id
      · subst hi
        simp only [List.mem_filter, List.mem_append, List.mem_cons, List.not_mem_nil, or_false, Prod.mk.injEq,
          and_true, true_and, decide_eq_true_eq, if_true, ha]
        constructor
        · rintro ⟨hq | rfl, hn⟩
          · exact .inl ⟨hq, fun hd => hn ⟨hq, hd⟩⟩
          · exact .inr rfl
        · rintro (⟨hq, hn⟩ | rfl)
          · exact ⟨.inl hq, fun hd => hn hd.2⟩
          · exact ⟨.inr rfl, fun hd => hm hd.1⟩
      · simp [hi]
    have ha1 : ∀ q, (q, d1.id) ∈ att1 ↔ q ∈ d1.elems := by
      intro q
      rw [hatt, h4.id, if_pos rfl]
    obtain ⟨k1, k2⟩ := ih hl1 ha1
    refine ⟨k1, ?_⟩
    intro d' att' hd'
    obtain ⟨m1, m2, m3, m4, m5, g', m6, m7, m8⟩ := k2 d' att' hd'
    refine ⟨m1, ⟨m2.id.trans h4.id, m2.name.trans h4.name, m2.seqAware.trans h4.seqAware, m2.last.trans h4.last⟩, ?_, ?_, ?_,
      fun c => g' (g c), ?_, ?_, ?_⟩
    · intro q i
      rw [m3, h4.id]
      split
      · rfl
      · rename_i hi
        rw [hatt, if_neg hi]
    · intro q hq
      rcases m4 q hq with hq | ⟨y, hy, hyq⟩
      · rw [h3] at hq
        simp only [List.mem_append, List.mem_filter, List.mem_cons, List.not_mem_nil, or_false] at hq
        rcases hq with ⟨hq, _⟩ | rfl
        · exact .inl hq
        · exact .inr ⟨x, by simp, hp⟩
      · exact .inr ⟨y, by simp [hy], hyq⟩
    · have up : ∀ q, (q ∈ d.elems ∨ q = p) → ∃ r ∈ d'.elems, r <+: q := by
        intro q hq
        by_cases hd : q ∈ d.elems ∧ Pos.isDescendantOf q p = true
        · obtain ⟨r, hr, hrp⟩ := m5 p (.inl (by rw [h3]; simp))
          exact ⟨r, hr, hrp.trans ((Pos.isDescendantOf_iff _ _).1 hd.2).1⟩
        · apply m5
          left
          rw [h3]
          simp only [List.mem_append, List.mem_filter, List.mem_cons, List.not_mem_nil, or_false, decide_eq_true_eq]
          rcases hq with hq | rfl
          · exact .inl ⟨hq, fun h => hd ⟨hq, h⟩⟩
          · exact .inr rfl
      rintro q (hq | ⟨y, hy, hyq⟩)
      · exact up q (.inl hq)
      · rcases List.mem_cons.1 hy with rfl | hy
        · rw [hp] at hyq
          simp only [Option.some.injEq] at hyq
          exact up q (.inr hyq.symm)
        · exact m5 q (.inr ⟨y, hy, hyq⟩)
    · rw [m6, h6, List.map_map]; rfl
    · intro c hc
      exact (h7 c hc).1.trans (m7 (g c) (by rw [h6]; exact List.mem_map.2 ⟨c, hc, rfl⟩))
    · intro c hc hv
      apply m8 (g c) (by rw [h6]; exact List.mem_map.2 ⟨c, hc, rfl⟩)
      obtain ⟨x1, x2, b, x3, x4, x5, x6⟩ := h7 c hc
      have okg := h2.ok (g c) (by rw [h6]; exact List.mem_map.2 ⟨c, hc, rfl⟩)
      intro a ha'
      have haa := okg.area_iff.2 ⟨ha', rfl⟩
      by_cases hr : a.elem = p
      · rw [hr, x3] at haa
        simp only [Option.some.injEq] at haa
        subst haa
        simpa using x4
      · by_cases hd : Pos.isDescendantOf a.elem p = true
        · have hr' : a.elem ∉ d1.elems := by rw [h3]; simp [hd, hr]
          rw [okg.area_none hr'] at haa; simp at haa
        · rw [x2 a.elem hr hd] at haa
          exact hv a ((h.ok c hc).area_iff.1 haa).1

/-! ## Settings -/

theorem Area.fromXml_spec {root : Elem} (wf : root.WF) {rd : Reader} {a : Area} (ha : a.Sized root) {x : Xml} :
    a.fromXml root rd x ≠ .abort ∧
    ∀ a', a.fromXml root rd x = .ok a' → a'.elem = a.elem ∧ a'.Sized root ∧ a'.valid = true := by
  obtain ⟨e, he, hl⟩ := ha
  obtain ⟨off, ho⟩ := Elem.offset_of_at (off := 0) he
  have hb : ∀ y raw, e.importXml rd false off off y raw a.board = e.importXml rd false 0 0 y raw a.board := by
    intro y raw
    rw [Elem.importXml_base e (Nat.le_refl off), Nat.sub_self]
  simp only [Area.fromXml, he, ho]
  split
  · rename_i y hy
    split
    · rw [hb]
      have h1 := Elem.importXml_safe wf he rd false false y.settings (b := a.board) (off := 0) (by omega)
      have h2 := (Elem.importXml_outside wf he rd false false y.settings a.board 0).1
      split
      · rename_i b hres
        rw [hres] at h2
        refine ⟨by simp, ?_⟩
        intro a' ha'
        simp only [Out.ok.injEq] at ha'
        subst ha'
        exact ⟨rfl, ⟨e, he, h2.trans hl⟩, rfl⟩
      · simp
      · rename_i hres
        rw [hres] at h1
        simp at h1
    · simp
  · simp

/-- The settings of the configuration become those given in the list, the others stay. -/
def Config.Given (root : Elem) (rd : Reader) (xs : List Xml) (c c' : Config) : Prop :=
  ∀ p a path, c.area? p = some a → root.path p = some path →
    match lastWith path xs with
    | none => c'.area? p = some a
    | some x => ∃ a0 a' : Area, a0.elem = p ∧ a0.Sized root ∧ a0.fromXml root rd x = .ok a' ∧ c'.area? p = some a'

theorem lastWith_append {path : Str} {xs ys : List Xml} :
    lastWith path (xs ++ ys) = (lastWith path ys).or (lastWith path xs) := by
  simp [lastWith, List.getLast?_append]

theorem lastWith_cons {path : Str} {x : Xml} {ys : List Xml} :
    lastWith path (x :: ys) = (lastWith path ys).or (if x.attrText (s "Path") = path then some x else none) := by
  have := lastWith_append (path := path) (xs := [x]) (ys := ys)
  rw [List.singleton_append] at this
  rw [this]
  congr 1
  unfold lastWith
  by_cases h : x.attrText (s "Path") = path <;> simp [h]

theorem Config.Given.trans {root : Elem} {rd : Reader} {xs ys : List Xml} {a b c : Config}
    (h1 : Config.Given root rd xs a b) (h2 : Config.Given root rd ys b c) : Config.Given root rd (xs ++ ys) a c := by
  intro p u path hu hp
  rw [lastWith_append]
  have k1 := h1 p u path hu hp
  cases hx : lastWith path ys with
  | none =>
    simp only [Option.none_or]
    cases hy : lastWith path xs with
    | none =>
      rw [hy] at k1
      have k2 := h2 p u path k1 hp
      rw [hx] at k2
      exact k2
    | some y =>
      rw [hy] at k1
      obtain ⟨a0, a', g1, g2, g3, g4⟩ := k1
      have k2 := h2 p a' path g4 hp
      rw [hx] at k2
      exact ⟨a0, a', g1, g2, g3, k2⟩
  | some x =>
    simp only [Option.some_or]
    have : ∃ w, b.area? p = some w := by
      cases hy : lastWith path xs with
      | none => rw [hy] at k1; exact ⟨_, k1⟩
      | some y => rw [hy] at k1; obtain ⟨_, a', _, _, _, g4⟩ := k1; exact ⟨a', g4⟩
    obtain ⟨w, hw⟩ := this
    have k2 := h2 p w path hw hp
    rw [hx] at k2
    exact k2

theorem Config.Given.nil {root : Elem} {rd : Reader} (c : Config) : Config.Given root rd [] c c := by
  intro p a path ha _
  simpa [lastWith] using ha

/-- Moving an area and replacing it. -/
theorem areasMove {root : Elem} {E : List Pos} {c : Config} {front back : List Area} {a a' : Area}
    (h : Config.OK root E { c with areas := front ++ back }) (ha : a ∈ front ++ back) (he : a'.elem = a.elem)
    (hs : a'.Sized root) :
    let back' := if front.any (fun b => b.elem == a.elem) then back else back.eraseP (fun b => b.elem == a.elem)
    let as := front.eraseP (fun b => b.elem == a.elem) ++ [a'] ++ back'
    Config.OK root E { c with areas := as } ∧
      Config.area? { c with areas := as } a.elem = some a' ∧
      (∀ q, q ≠ a.elem → Config.area? { c with areas := as } q = Config.area? { c with areas := front ++ back } q) := by
  intro back' as
  have nd := h.nodup
  simp only [List.map_append] at nd
  rw [List.nodup_append] at nd
  obtain ⟨n1, n2, n3⟩ := nd
  have hb' : back' = back.eraseP (fun b => b.elem == a.elem) := by
    show (if _ then _ else _) = _
    split
    · rename_i hany
      rw [List.any_eq_true] at hany
      obtain ⟨y, hy, hya⟩ := hany
      symm
      apply List.eraseP_of_forall_not
      intro z hz hza
      simp only [beq_iff_eq] at hya hza
      exact n3 y.elem (List.mem_map.2 ⟨y, hy, rfl⟩) z.elem (List.mem_map.2 ⟨z, hz, rfl⟩) (hya.trans hza.symm)
    · rfl
  have hel : as.map Area.elem = (front.map Area.elem).filter (· ≠ a.elem) ++ a.elem :: (back.map Area.elem).filter (· ≠ a.elem) := by
    show List.map _ (_ ++ _ ++ back') = _
    rw [hb', List.map_append, List.map_append, eraseP_elems n1, eraseP_elems n2]
    simp [he]
  have ok : Config.OK root E { c with areas := as } := by
    refine ⟨?_, ?_, ?_⟩
    · show (as.map Area.elem).Nodup
      rw [hel, List.nodup_append]
      refine ⟨n1.sublist List.filter_sublist, ?_, ?_⟩
      · rw [List.nodup_cons]
        exact ⟨by simp, n2.sublist List.filter_sublist⟩
      · intro u hu v hv huv
        subst huv
        simp only [List.mem_filter, ne_eq, decide_not, Bool.not_eq_true', decide_eq_false_iff_not, List.mem_cons] at hu hv
        rcases hv with hv | hv
        · exact hu.2 hv
        · exact n3 u hu.1 u hv.1 rfl
    · intro q
      show q ∈ as.map Area.elem ↔ _
      have hm := h.mem q
      simp only [List.map_append, List.mem_append] at hm
      rw [hel, ← hm]
      by_cases hq : q = a.elem
      · subst hq
        have : a.elem ∈ (front ++ back).map Area.elem := List.mem_map.2 ⟨a, ha, rfl⟩
        simp only [List.map_append, List.mem_append] at this
        simp only [List.mem_append, List.mem_cons, true_or, or_true, this]
      · simp [hq]
    · intro b hb
      have hb : b ∈ as := hb
      simp only [as, hb', List.mem_append, List.mem_cons, List.not_mem_nil, or_false] at hb
      rcases hb with (hb | rfl) | hb
      · exact h.sized b (by simp [List.mem_of_mem_eraseP hb])
      · exact hs
      · exact h.sized b (by simp [List.mem_of_mem_eraseP hb])
  refine ⟨ok, ok.area_iff.2 ⟨by simp [as], he⟩, ?_⟩
  intro q hq
  show List.find? _ as = List.find? _ (front ++ back)
  have h3 : (a'.elem == q) = false := by rw [he]; simpa using hq.symm
  simp only [as, hb', List.find?_append, eraseP_find_ne hq, List.find?_cons, List.find?_nil, h3, Option.or_none]

theorem areasFromXml_spec {root : Elem} (wf : root.WF) {rd : Reader} {xs : List Xml} {E : List Pos}
    (loc : Located root E) {c : Config}
    {front back : List Area} (h : Config.OK root E { c with areas := front ++ back }) :
    areasFromXml root rd front back xs ≠ .abort ∧
    ∀ as, areasFromXml root rd front back xs = .ok as → Config.OK root E { c with areas := as } ∧
      Config.Given root rd xs { c with areas := front ++ back } { c with areas := as } ∧
      (∀ x ∈ xs, ∃ p ∈ E, root.path p = some (x.attrText (s "Path"))) ∧
      ∀ p a a', Config.area? { c with areas := front ++ back } p = some a →
        Config.area? { c with areas := as } p = some a' → a.valid = true → a'.valid = true := by
  induction xs generalizing front back with
  | nil =>
    refine ⟨by simp [areasFromXml], ?_⟩
    intro as has
    simp only [areasFromXml, Out.ok.injEq] at has
    subst has
    refine ⟨h, .nil _, by simp, ?_⟩
    intro p a a' h1 h2 h3
    rw [h1] at h2
    simp only [Option.some.injEq] at h2
    exact h2 ▸ h3
  | cons x xs ih =>
    simp only [areasFromXml]
    split
    · simp
    rename_i a ha
    have hmem : a ∈ front ++ back := List.mem_of_find?_eq_some ha
    have hpath : root.path a.elem = some (x.attrText (s "Path")) := by simpa using List.find?_some ha
    obtain ⟨f1, f2⟩ := Area.fromXml_spec wf (rd := rd) (x := x) (h.sized a hmem)
    have hE : a.elem ∈ E := (h.mem _).1 (List.mem_map.2 ⟨a, hmem, rfl⟩)
    cases hr : a.fromXml root rd x with
    | abort => exact absurd hr f1
    | err => simp [Out.bind]
    | ok a' =>
      simp only [Out.bind]
      obtain ⟨g1, g2, g3⟩ := f2 a' hr
      obtain ⟨k1, k2, k3⟩ := areasMove h hmem g1 g2
      obtain ⟨m1, m2⟩ := ih k1
      refine ⟨m1, ?_⟩
      intro as has
      obtain ⟨n1, n2, n3, n4⟩ := m2 as has
      have hstep : Config.Given root rd [x] { c with areas := front ++ back }
          { c with areas := front.eraseP (fun b => b.elem == a.elem) ++ [a'] ++
            (if front.any (fun b => b.elem == a.elem) then back else back.eraseP (fun b => b.elem == a.elem)) } := by
        intro p u path hu hp
        have hpE : p ∈ E := by
          obtain ⟨w1, rfl⟩ := h.area_iff.1 hu
          exact (h.mem _).1 (List.mem_map.2 ⟨u, w1, rfl⟩)
        by_cases hx : x.attrText (s "Path") = path
        · have hpa : p = a.elem := loc.inj hpE hE hp (hx ▸ hpath)
          subst hpa
          rw [lastWith_cons, if_pos hx]
          simp only [lastWith, List.filter_nil, List.getLast?_nil, Option.none_or]
          have hu' := h.area_iff.2 ⟨hmem, rfl⟩
          exact ⟨a, a', rfl, h.sized a hmem, hr, k2⟩
        · rw [lastWith_cons, if_neg hx]
          simp only [lastWith, List.filter_nil, List.getLast?_nil, Option.none_or]
          rw [k3 p (by
            intro hpa
            subst hpa
            rw [hpath] at hp
            simp only [Option.some.injEq] at hp
            exact hx hp)]
          exact hu
      refine ⟨n1, ?_, ?_, ?_⟩
      · have := hstep.trans n2
        rwa [List.singleton_append] at this
      · intro y hy
        rcases List.mem_cons.1 hy with rfl | hy
        · exact ⟨a.elem, hE, hpath⟩
        · exact n3 y hy
      · intro p u u' hu hu' hv
        by_cases hpa : p = a.elem
        · subst hpa
          exact n4 _ a' u' k2 hu' g3
        · exact n4 p u u' (by rw [k3 p hpa]; exact hu) hu' hv

/-- What holds after the settings of a domain were read. -/
structure Domain.Settled (root : Elem) (rd : Reader) (xs : List Xml) (d : Domain) (g : Config → Config) : Prop where
  same : ∀ c ∈ d.configs, c.Same (g c)
  given : ∀ c ∈ d.configs, d.findConfig c.pathName = some c →
    Config.Given root rd (settingsOf c.pathName xs) c (g c)
  others : ∀ c ∈ d.configs, d.findConfig c.pathName ≠ some c → g c = c
  named : ∀ y ∈ xs, ∃ c, d.findConfig y.nameAttr = some c
  paths : ∀ y ∈ xs, ∀ z ∈ y.children, ∃ p ∈ d.elems, root.path p = some (z.attrText (s "Path"))

theorem settingsOf_cons {name : Str} {x : Xml} {xs : List Xml} :
    settingsOf name (x :: xs) = (if x.nameAttr = name then x.children else []) ++ settingsOf name xs := by
  unfold settingsOf
  by_cases h : x.nameAttr = name <;> simp [h]

theorem find_same {cs : List Config} {g : Config → Config} (hs : ∀ c ∈ cs, c.Same (g c)) (name : Str) :
    (cs.map g).find? (fun c => c.pathName == name) = (cs.find? (fun c => c.pathName == name)).map g := by
  induction cs with
  | nil => rfl
  | cons c cs ih =>
    have h1 : (g c).pathName = c.pathName := by simp [Config.pathName, (hs c (by simp)).2.1]
    simp only [List.map_cons, List.find?_cons, h1, ih (fun c' hc' => hs c' (by simp [hc']))]
    split <;> rfl

theorem Domain.findConfig_same {d d' : Domain} {g : Config → Config} (h : d'.configs = d.configs.map g)
    (hs : ∀ c ∈ d.configs, c.Same (g c)) (name : Str) : d'.findConfig name = (d.findConfig name).map g := by
  unfold Domain.findConfig
  rw [h]
  exact find_same hs name

theorem Domain.Loading.mapSame {root : Elem} {d : Domain} (h : d.Loading root) {g : Config → Config}
    (hs : ∀ c ∈ d.configs, c.Same (g c)) (hok : ∀ c ∈ d.configs, (g c).OK root d.elems) :
    Domain.Loading root { d with configs := d.configs.map g } := by
  have hi := map_ids hs
  refine ⟨⟨h.at_, h.nodup, ?_, ?_, ?_, h.keys, h.covers, h.sorted⟩, h.antichain, h.located⟩
  · intro c hc
    obtain ⟨c0, hc0, rfl⟩ := List.mem_map.1 hc
    exact hok c0 hc0
  · show ((d.configs.map g).map Config.id).Nodup
    rw [hi]; exact h.ids
  · show ∀ i, d.last = some i → i ∈ (d.configs.map g).map Config.id
    rw [hi]; exact h.last

theorem settingsFromXml_spec {root : Elem} (wf : root.WF) {rd : Reader} {xs : List Xml} {d : Domain}
    (h : d.Loading root) :
    settingsFromXml root rd xs d ≠ .abort ∧
    ∀ d', settingsFromXml root rd xs d = .ok d' → d'.Loading root ∧
      ∃ g, d' = { d with configs := d.configs.map g } ∧ d.Settled root rd xs g := by
  induction xs generalizing d with
  | nil =>
    refine ⟨by simp [settingsFromXml], ?_⟩
    intro d' hd'
    simp only [settingsFromXml, Out.ok.injEq] at hd'
    subst hd'
    refine ⟨h, fun c => c, by simp, fun c _ => .refl c, fun c _ _ => ?_, fun _ _ _ => rfl, by simp, by simp⟩
    simpa [settingsOf] using Config.Given.nil c
  | cons x xs ih =>
    simp only [settingsFromXml]
    split
    · simp
    rename_i c hc
    obtain ⟨hcm, hcn⟩ := Domain.findConfig_mem hc
    obtain ⟨a1, a2⟩ := areasFromXml_spec wf (rd := rd) (xs := x.children) h.located (c := c) (front := []) (back := c.areas)
      (h.ok c hcm)
    cases hr : areasFromXml root rd [] c.areas x.children with
    | abort => exact absurd hr a1
    | err => simp [Out.bind]
    | ok as =>
      simp only [Out.bind]
      obtain ⟨b1, b2, b3, b4⟩ := a2 as hr
      let g0 : Config → Config := fun y => if y.id = c.id then { c with areas := as } else y
      have hg0 : d.setConfig { c with areas := as } = { d with configs := d.configs.map g0 } := rfl
      have e0 : ∀ y ∈ d.configs, y.id = c.id → y = c := fun y hy hi => Domain.config_inj h.ids hy hcm hi
      have s0 : ∀ y ∈ d.configs, y.Same (g0 y) := by
        intro y hy
        show y.Same (if _ then _ else _)
        split
        · rename_i hi
          rw [e0 y hy hi]
          exact ⟨rfl, rfl, rfl⟩
        · exact .refl y
      have l0 : (d.setConfig { c with areas := as }).Loading root := by
        rw [hg0]
        apply h.mapSame s0
        intro y hy
        show Config.OK root d.elems (if _ then _ else _)
        split
        · exact b1
        · exact h.ok y hy
      obtain ⟨k1, k2⟩ := ih l0
      refine ⟨k1, ?_⟩
      intro d' hd'
      obtain ⟨m1, g, m2, m3⟩ := k2 d' hd'
      refine ⟨m1, fun y => g (g0 y), ?_, ?_, ?_, ?_, ?_, ?_⟩
      rotate_left 4
      · intro y hy
        rcases List.mem_cons.1 hy with rfl | hy
        · exact ⟨c, hc⟩
        · obtain ⟨c', hc'⟩ := m3.named y hy
          rw [Domain.findConfig_same (d := d) (g := g0) rfl s0] at hc'
          cases hq : d.findConfig y.nameAttr with
          | none => rw [hq] at hc'; simp at hc'
          | some z => exact ⟨z, rfl⟩
      · intro y hy
        rcases List.mem_cons.1 hy with rfl | hy
        · exact b3
        · exact m3.paths y hy
      · rw [m2, hg0]
        simp
      · intro y hy
        exact (s0 y hy).trans (m3.same _ (by rw [hg0]; exact List.mem_map.2 ⟨y, hy, rfl⟩))
      · intro y hy hf
        have hpn : (g0 y).pathName = y.pathName := by simp [Config.pathName, (s0 y hy).2.1]
        have hf' : (d.setConfig { c with areas := as }).findConfig (g0 y).pathName = some (g0 y) := by
          rw [hpn, Domain.findConfig_same (d := d) (g := g0) rfl s0, hf]; rfl
        have k := m3.given (g0 y) (by rw [hg0]; exact List.mem_map.2 ⟨y, hy, rfl⟩) hf'
        rw [hpn] at k
        rw [settingsOf_cons]
        refine Config.Given.trans ?_ k
        by_cases hn : x.nameAttr = y.pathName
        · rw [if_pos hn]
          rw [hn, hf] at hc
          simp only [Option.some.injEq] at hc
          subst hc
          have : g0 y = { y with areas := as } := by simp [g0]
          rw [this]
          exact b2
        · rw [if_neg hn]
          have hne : y.id ≠ c.id := by
            intro hi
            apply hn
            rw [e0 y hy hi, hcn]
          have : g0 y = y := by simp [g0, hne]
          rw [this]
          exact .nil y
      · intro y hy hf
        have hne : y.id ≠ c.id := by
          intro hi
          apply hf
          rw [e0 y hy hi, hcn]
          exact hc
        have hg : g0 y = y := by simp [g0, hne]
        have hf' : (d.setConfig { c with areas := as }).findConfig (g0 y).pathName ≠ some (g0 y) := by
          rw [hg, Domain.findConfig_same (d := d) (g := g0) rfl s0]
          intro hq
          cases hq' : d.findConfig y.pathName with
          | none => rw [hq'] at hq; simp at hq
          | some z =>
            rw [hq'] at hq
            simp only [Option.map_some, Option.some.injEq] at hq
            have hz := (Domain.findConfig_mem hq').1
            have : z.id = y.id := by rw [← (s0 z hz).1, hq]
            exact hf (by rw [hq', Domain.config_inj h.ids hz hy this])
        have := m3.others (g0 y) (by rw [hg0]; exact List.mem_map.2 ⟨y, hy, rfl⟩) hf'
        rw [this, hg]

/-! ## Validation -/

/-- The valid settings of an element in the first configuration that has some. -/
def firstValid (p : Pos) (cs : List Config) : Option Area := (cs.filterMap (fun c => c.area? p)).find? Area.valid

theorem findValid_spec {root : Elem} {E : List Pos} {p : Pos} (hp : p ∈ E) {cs : List Config} (h : ∀ c ∈ cs, c.OK root E) :
    ∃ r, findValid p cs = some r ∧
      match r with
      | none => firstValid p cs = none ∧ ∀ c ∈ cs, ∀ a, c.area? p = some a → a.valid = false
      | some v => v ∈ cs ∧ ∃ b, v.area? p = some b ∧ b.valid = true ∧ firstValid p cs = some b := by
  induction cs with
  | nil => exact ⟨none, rfl, by simp [firstValid], by simp⟩
  | cons c cs ih =>
    obtain ⟨a, ha, hs, he⟩ := (h c (by simp)).area hp
    cases hv : a.valid with
    | true =>
      refine ⟨some c, by simp [findValid, Config.isValid, ha, hv], by simp, a, ha, hv, ?_⟩
      simp [firstValid, ha, hv]
    | false =>
      obtain ⟨r, h1, h2⟩ := ih (fun c' hc' => h c' (by simp [hc']))
      refine ⟨r, by simp [findValid, Config.isValid, ha, hv, h1], ?_⟩
      have hf : firstValid p (c :: cs) = firstValid p cs := by simp [firstValid, ha, hv]
      rw [hf]
      cases r with
      | none =>
        refine ⟨h2.1, ?_⟩
        intro c' hc' a' ha'
        rcases List.mem_cons.1 hc' with rfl | hc'
        · rw [ha] at ha'
          simp only [Option.some.injEq] at ha'
          exact ha' ▸ hv
        · exact h2.2 c' hc' a' ha'
      | some v => exact ⟨by simp [h2.1], h2.2⟩

/-- What the automatic validation of one element does to a configuration. -/
theorem Domain.autoValidate_spec {root : Elem} {d : Domain} (h : d.Loading root) {p : Pos} (hp : p ∈ d.elems) :
    ∃ g : Config → Config, d.autoValidate p = some { d with configs := d.configs.map g } ∧
      (∀ c ∈ d.configs, c.Same (g c)) ∧ (∀ c ∈ d.configs, (g c).OK root d.elems) ∧
      (∀ c ∈ d.configs, (g c).areas.map Area.elem = c.areas.map Area.elem) ∧
      (∀ c ∈ d.configs, ∀ q, q ≠ p → (g c).area? q = c.area? q) ∧
      (∀ c ∈ d.configs, ∀ a, c.area? p = some a →
        (g c).area? p = some (if a.valid = true then a else (firstValid p d.configs).getD a)) := by
  obtain ⟨r, h1, h2⟩ := findValid_spec hp h.ok
  simp only [Domain.autoValidate, h1]
  cases r with
  | none =>
    refine ⟨fun c => c, by simp, fun c _ => .refl c, fun c hc => h.ok c hc, fun _ _ => rfl, fun _ _ _ _ => rfl, ?_⟩
    intro c hc a ha
    rw [h2.1]
    simp [ha]
  | some v =>
    obtain ⟨hv, b, hb, hbv, hfv⟩ := h2
    have hb' := (h.ok v hv).area_iff.1 hb
    have key : ∀ c ∈ d.configs, ∃ c', (if c.id = v.id then some c
        else
          match c.isValid p with
          | none => none
          | some true => some c
          | some false => Config.validateElemAgainst v p c) = some c' ∧ c.Same c' ∧ c'.OK root d.elems ∧
        c'.areas.map Area.elem = c.areas.map Area.elem ∧ (∀ q, q ≠ p → c'.area? q = c.area? q) ∧
        (∀ a, c.area? p = some a → c'.area? p = some (if a.valid = true then a else b)) := by
      intro c hc
      obtain ⟨a, ha, hs, he⟩ := (h.ok c hc).area hp
      have stay : a.valid = true → ∀ a1, c.area? p = some a1 → c.area? p = some (if a1.valid = true then a1 else b) := by
        intro hav a1 ha1
        rw [ha] at ha1
        simp only [Option.some.injEq] at ha1
        subst ha1
        rw [ha, if_pos hav]
      by_cases hid : c.id = v.id
      · have hcv := Domain.config_inj h.ids hc hv hid
        subst hcv
        rw [hb] at ha
        simp only [Option.some.injEq] at ha
        subst ha
        exact ⟨c, by simp, .refl c, h.ok c hc, rfl, fun _ _ => rfl, stay hbv⟩
      · rw [if_neg hid]
        cases hav : a.valid with
        | true =>
          exact ⟨c, by simp [Config.isValid, ha, hav], .refl c, h.ok c hc, rfl, fun _ _ => rfl, stay hav⟩
        | false =>
          have hva := Area.validateAgainst_spec hs ((h.ok v hv).sized b hb'.1) (he.trans hb'.2.symm) hav hbv
          obtain ⟨g1, g2, g3⟩ := (h.ok c hc).set hp hb'.2 ((h.ok v hv).sized b hb'.1)
          refine ⟨{ c with areas := setArea p b c.areas }, ?_, ⟨rfl, rfl, rfl⟩, g1, setArea_elems hb'.2 c.areas, g3, ?_⟩
          · simp only [Config.isValid, ha, Option.map_some, hav, Config.validateElemAgainst, hb, hva]
          · intro a1 ha1
            rw [ha] at ha1
            simp only [Option.some.injEq] at ha1
            subst ha1
            rw [g2, hav]
            simp
    obtain ⟨g, k1, k2⟩ := Domain.mapConfigs_spec (d := d) (f := fun c => if c.id = v.id then some c
        else
          match c.isValid p with
          | none => none
          | some true => some c
          | some false => Config.validateElemAgainst v p c)
      (fun c hc => by obtain ⟨c', h, _⟩ := key c hc; exact ⟨c', h⟩)
    have key' : ∀ c ∈ d.configs, c.Same (g c) ∧ (g c).OK root d.elems ∧
        (g c).areas.map Area.elem = c.areas.map Area.elem ∧ (∀ q, q ≠ p → (g c).area? q = c.area? q) ∧
        (∀ a, c.area? p = some a → (g c).area? p = some (if a.valid = true then a else b)) := by
      intro c hc
      obtain ⟨c', x1, x2⟩ := key c hc
      have := k2 c hc
      rw [this] at x1
      simp only [Option.some.injEq] at x1
      subst x1
      exact x2
    refine ⟨g, k1, fun c hc => (key' c hc).1, fun c hc => (key' c hc).2.1, fun c hc => (key' c hc).2.2.1,
      fun c hc => (key' c hc).2.2.2.1, ?_⟩
    intro c hc a ha
    rw [(key' c hc).2.2.2.2 a ha, hfv]
    rfl

theorem firstValid_congr {p : Pos} {cs : List Config} {g : Config → Config} (h : ∀ c ∈ cs, (g c).area? p = c.area? p) :
    firstValid p (cs.map g) = firstValid p cs := by
  unfold firstValid
  rw [List.filterMap_map]
  congr 1
  induction cs with
  | nil => rfl
  | cons c cs ih =>
    have h1 := h c (by simp)
    have h2 := ih (fun c' hc' => h c' (by simp [hc']))
    simp only [List.filterMap_cons, Function.comp, h1]
    rw [← h2]
    rfl

theorem Domain.autoValidateAll_spec {root : Elem} {ps : List Pos} {d : Domain} (h : d.Loading root)
    (hps : ∀ p ∈ ps, p ∈ d.elems) (nd : ps.Nodup) :
    ∃ g : Config → Config, d.autoValidateAll ps = some { d with configs := d.configs.map g } ∧
      (∀ c ∈ d.configs, c.Same (g c)) ∧ (∀ c ∈ d.configs, (g c).OK root d.elems) ∧
      (∀ c ∈ d.configs, (g c).areas.map Area.elem = c.areas.map Area.elem) ∧
      (∀ c ∈ d.configs, ∀ q, q ∉ ps → (g c).area? q = c.area? q) ∧
      (∀ c ∈ d.configs, ∀ p ∈ ps, ∀ a, c.area? p = some a →
        (g c).area? p = some (if a.valid = true then a else (firstValid p d.configs).getD a)) := by
  induction ps generalizing d with
  | nil =>
    exact ⟨fun c => c, by simp [Domain.autoValidateAll], fun c _ => .refl c, fun c hc => h.ok c hc, fun _ _ => rfl,
      fun _ _ _ _ => rfl, by simp⟩
  | cons p ps ih =>
    rw [List.nodup_cons] at nd
    obtain ⟨g, h1, h2, h3, h4, h5, h6⟩ := Domain.autoValidate_spec h (hps p (by simp))
    obtain ⟨g', k1, k2, k3, k4, k5, k6⟩ := ih (h.mapSame h2 h3) (fun q hq => hps q (by simp [hq])) nd.2
    have hm : ∀ c ∈ d.configs, g c ∈ d.configs.map g := fun c hc => List.mem_map.2 ⟨c, hc, rfl⟩
    refine ⟨fun c => g' (g c), ?_, ?_, ?_, ?_, ?_, ?_⟩
    · simp only [Domain.autoValidateAll, h1, k1]
      simp
    · exact fun c hc => (h2 c hc).trans (k2 _ (hm c hc))
    · exact fun c hc => k3 _ (hm c hc)
    · exact fun c hc => (k4 _ (hm c hc)).trans (h4 c hc)
    · intro c hc q hq
      simp only [List.mem_cons, not_or] at hq
      rw [k5 _ (hm c hc) q hq.2, h5 c hc q hq.1]
    · intro c hc q hq a ha
      rcases List.mem_cons.1 hq with rfl | hq'
      · rw [k5 _ (hm c hc) q nd.1]
        exact h6 c hc a ha
      · have hne : q ≠ p := by intro h; subst h; exact nd.1 hq'
        rw [k6 _ (hm c hc) q hq' a (by rw [h5 c hc q hne]; exact ha)]
        rw [show firstValid q (Domain.configs { d with configs := d.configs.map g }) = firstValid q d.configs from
          firstValid_congr (fun c hc => h5 c hc q hne)]

theorem Config.validateAll_spec {root : Elem} (wf : root.WF) {E : List Pos} {c : Config} (h : c.OK root E) {main : Board}
    (hm : main.length = root.footprint) :
    ∃ c', c.validate root main = some c' ∧ c.Same c' ∧ c'.OK root E ∧
      c'.areas.map Area.elem = c.areas.map Area.elem ∧ (∀ a ∈ c'.areas, a.valid = true) ∧
      (∀ p a, c.area? p = some a → ∃ a', c'.area? p = some a' ∧ (a.valid = true → a' = a) ∧
        (a.valid = false → ∀ i, root.Owns p i → a'.value root i = main.bit i)) := by
  have hf : ∀ a ∈ c.areas, ∃ a', a.validate root main = some a' ∧ a'.Sized root ∧ a'.elem = a.elem ∧ a'.valid = true ∧
      (a.valid = true → a' = a) ∧ (a.valid = false → ∀ i, root.Owns a.elem i → a'.value root i = main.bit i) :=
    fun a ha => Area.validate_spec wf (h.sized a ha) hm
  obtain ⟨as, h1, h2, h3, h4, h5⟩ := mapAreas_spec h (f := Area.validate root main)
    (fun a ha => by obtain ⟨a', x1, x2, x3, _⟩ := hf a ha; exact ⟨a', x1, x2, x3⟩)
  refine ⟨{ c with areas := as }, by simp [Config.validate, h1], ⟨rfl, rfl, rfl⟩, h2, h3, ?_, ?_⟩
  · intro a' ha'
    obtain ⟨a, ha, g1⟩ := h5 a' ha'
    obtain ⟨a'', x1, x2, x3, x4, x5⟩ := hf a ha
    rw [g1] at x1
    simp only [Option.some.injEq] at x1
    subst x1
    exact x4
  · intro p a ha
    obtain ⟨a', g1, g2⟩ := h4 p a ha
    obtain ⟨hm', he⟩ := h.area_iff.1 ha
    obtain ⟨a'', x1, x2, x3, x4, x5, x6⟩ := hf a hm'
    rw [g1] at x1
    simp only [Option.some.injEq] at x1
    subst x1
    exact ⟨a', g2, x5, fun hv i hi => x6 hv i (he ▸ hi)⟩

/-- What the validation of a domain against the main blackboard does. -/
theorem Domain.validate_spec {root : Elem} (wf : root.WF) {d : Domain} (h : d.Loading root) {main : Board}
    (hm : main.length = root.footprint) :
    ∃ g : Config → Config, d.validate root main = some { d with configs := d.configs.map g } ∧
      (∀ c ∈ d.configs, c.Same (g c)) ∧
      (∀ c ∈ d.configs, (g c).areas.map Area.elem = c.areas.map Area.elem) ∧
      (∀ c ∈ d.configs, ∀ p a, c.area? p = some a → ∃ a', (g c).area? p = some a' ∧ (a.valid = true → a' = a) ∧
        (a.valid = false → ∀ i, root.Owns p i → a'.value root i = main.bit i)) ∧
      Domain.Good root { d with configs := d.configs.map g } := by
  have key := fun c hc => Config.validateAll_spec wf (h.ok c hc) hm
  obtain ⟨g, k1, k2⟩ := Domain.mapConfigs_spec (d := d) (f := Config.validate root main)
    (fun c hc => by obtain ⟨c', h, _⟩ := key c hc; exact ⟨c', h⟩)
  have key' : ∀ c ∈ d.configs, c.Same (g c) ∧ (g c).OK root d.elems ∧
      (g c).areas.map Area.elem = c.areas.map Area.elem ∧ (∀ a ∈ (g c).areas, a.valid = true) ∧
      (∀ p a, c.area? p = some a → ∃ a', (g c).area? p = some a' ∧ (a.valid = true → a' = a) ∧
        (a.valid = false → ∀ i, root.Owns p i → a'.value root i = main.bit i)) := by
    intro c hc
    obtain ⟨c', x1, x2⟩ := key c hc
    rw [k2 c hc] at x1
    simp only [Option.some.injEq] at x1
    subst x1
    exact x2
  have hl := h.mapSame (fun c hc => (key' c hc).1) (fun c hc => (key' c hc).2.1)
  refine ⟨g, k1, fun c hc => (key' c hc).1, fun c hc => (key' c hc).2.2.1, fun c hc => (key' c hc).2.2.2.2,
    hl.toMid, hl.antichain, ?_⟩
  intro c hc
  obtain ⟨c0, hc0, rfl⟩ := List.mem_map.1 hc
  exact (key' c0 hc0).2.2.2.1

/-! ## Domains -/

theorem Domain.parseSettings_eq {root : Elem} {rd : Reader} {withSettings : Bool} {x : Xml} {d : Domain} :
    d.parseSettings root rd withSettings x = settingsFromXml root rd (x.settingsList withSettings) d := by
  unfold Domain.parseSettings Xml.settingsList
  cases withSettings with
  | false => simp [settingsFromXml]
  | true =>
    simp only [Bool.not_true, Bool.false_eq_true, if_false, if_true]
    cases x.child? (s "Settings") <;> rfl

/-- The domain that is being read, before its elements are. -/
def Domain.blank (n : Nat) (aware : Bool) (x : Xml) (configs : List Config) : Domain :=
  { Domain.new n x.nameAttr with seqAware := aware, configs := configs }

theorem Domain.blank_loading {root : Elem} {n : Nat} {aware : Bool} {x : Xml} {configs : List Config}
    (h1 : (configs.map Config.id).Nodup) (h2 : ∀ c ∈ configs, c.areas = []) : (Domain.blank n aware x configs).Loading root := by
  refine ⟨⟨by simp [Domain.blank, Domain.new], by simp [Domain.blank, Domain.new], ?_, h1, by simp [Domain.blank, Domain.new],
    by simp [Domain.blank, Domain.new, Domain.syncOf], by simp [Domain.blank, Domain.new], by simp [Domain.blank, Domain.new]⟩,
    by simp [Domain.blank, Domain.new], by simp [Domain.blank, Domain.new, Located]⟩
  intro c hc
  have := h2 c hc
  exact ⟨by simp [this], by simp [this, Domain.blank, Domain.new], by simp [this]⟩

/-- The stages of reading a domain. -/
structure Domain.Stages (root : Elem) (rd : Reader) (cs : List Criterion) (withSettings : Bool) (n : Nat)
    (att : Attached) (aware : Bool) (x : Xml) (d : Domain) (att' : Attached) (m : Nat)
    (confs els : Xml) (configs : List Config) (d0 : Domain) (gs gv : Config → Config) : Prop where
  hConfs : x.childOrLast (s "Configurations") = some confs
  hEls : x.childOrLast (s "ConfigurableElements") = some els
  hConfigs : configsFromXml cs (n + 1) confs.children = .ok configs
  hElems : elemsFromXml root els.children (Domain.blank n aware x configs) att = .ok (d0, att')
  load0 : d0.Loading root
  settled : d0.Settled root rd (x.settingsList withSettings) gs
  load1 : Domain.Loading root { d0 with configs := d0.configs.map gs }
  valSame : ∀ c ∈ d0.configs, (gs c).Same (gv (gs c))
  valElems : ∀ c ∈ d0.configs, (gv (gs c)).areas.map Area.elem = (gs c).areas.map Area.elem
  validated : ∀ c ∈ d0.configs, ∀ p ∈ d0.elems, ∀ a, (gs c).area? p = some a →
    (gv (gs c)).area? p = some (if a.valid = true then a else (firstValid p (d0.configs.map gs)).getD a)
  result : d = { d0 with configs := d0.configs.map fun c => gv (gs c) }
  load : d.Loading root
  next : m = n + 1 + configs.length

theorem Domain.fromXml_stages {root : Elem} (wf : root.WF) {rd : Reader} {cs : List Criterion} {withSettings : Bool}
    {n : Nat} {att : Attached} (hatt : ∀ p, (p, n) ∉ att) {aware : Bool} {x : Xml} {d : Domain} {att' : Attached} {m : Nat}
    (h : Domain.fromXml root rd cs withSettings n att aware x = .ok (d, att', m)) :
    ∃ confs els configs d0 gs gv,
      Domain.Stages root rd cs withSettings n att aware x d att' m confs els configs d0 gs gv := by
  unfold Domain.fromXml at h
  split at h
  · rename_i confs els hconfs hels
    simp only [obind_ok] at h
    obtain ⟨configs, h1, ⟨d0, att1⟩, h2, d1, h3, h4⟩ := h
    split at h4
    · simp at h4
    rename_i d' hval
    simp only [Out.ok.injEq, Prod.mk.injEq] at h4
    obtain ⟨rfl, rfl, rfl⟩ := h4
    obtain ⟨c1, c2, c3, c4⟩ := configsFromXml_spec h1
    have hb : (Domain.blank n aware x configs).Loading root := Domain.blank_loading (by rw [c1]; exact List.nodup_range') c3
    obtain ⟨_, e2⟩ := elemsFromXml_spec wf (xs := els.children) hb (att := att)
      (by intro p; simp [Domain.blank, Domain.new, hatt])
    obtain ⟨l0, e3⟩ := e2 d0 att1 h2
    rw [Domain.parseSettings_eq] at h3
    obtain ⟨l1, gs, s1, s2⟩ := (settingsFromXml_spec wf (rd := rd) (xs := x.settingsList withSettings) l0).2 d1 h3
    subst s1
    obtain ⟨gv, v1, v2, v3, v4, v5, v6⟩ := Domain.autoValidateAll_spec l1 (ps := d0.elems) (fun p hp => hp) l0.nodup
    rw [v1] at hval
    simp only [Option.some.injEq] at hval
    subst hval
    have hm : ∀ c ∈ d0.configs, gs c ∈ d0.configs.map gs := fun c hc => List.mem_map.2 ⟨c, hc, rfl⟩
    refine ⟨confs, els, configs, d0, gs, gv, hconfs, hels, h1, h2, l0, s2, l1, fun c hc => v2 _ (hm c hc),
      fun c hc => v4 _ (hm c hc), fun c hc p hp a ha => v6 _ (hm c hc) p hp a ha, by simp, ?_, rfl⟩
    exact l1.mapSame v2 v3
  · simp at h

/-- The identity of a domain that is read, and of its configurations. -/
theorem Domain.fromXml_head {root : Elem} (wf : root.WF) {rd : Reader} {cs : List Criterion} {withSettings : Bool}
    {n : Nat} {att : Attached} (hatt : ∀ p, (p, n) ∉ att) {aware : Bool} {x : Xml} {d : Domain} {att' : Attached} {m : Nat}
    (h : Domain.fromXml root rd cs withSettings n att aware x = .ok (d, att', m)) :
    d.Loading root ∧ d.id = n ∧ d.name = x.nameAttr ∧ d.seqAware = aware ∧ d.last = none ∧ n < m ∧
      (∀ c ∈ d.configs, c.id < m) ∧ RulesOK cs d.configs ∧
      (∀ p i, (p, i) ∈ att' ↔ if i = n then p ∈ d.elems else (p, i) ∈ att) ∧
      ∃ confs, x.childOrLast (s "Configurations") = some confs ∧
        d.configs.map Config.name = confs.children.map Xml.nameAttr := by
  obtain ⟨confs, els, configs, d0, gs, gv, st⟩ := Domain.fromXml_stages wf hatt h
  obtain ⟨c1, c2, c3, c4⟩ := configsFromXml_spec st.hConfigs
  have hb : (Domain.blank n aware x configs).Loading root := Domain.blank_loading (by rw [c1]; exact List.nodup_range') c3
  obtain ⟨l0, hh, ha, _, _, g0, hg, hs, _⟩ := (elemsFromXml_spec wf (xs := els.children) hb (att := att)
    (by intro p; simp [Domain.blank, Domain.new, hatt])).2 d0 att' st.hElems
  have hconf : d.configs = configs.map fun c => gv (gs (g0 c)) := by
    rw [st.result]
    show d0.configs.map _ = _
    rw [hg, List.map_map]
    rfl
  have hsame : ∀ c ∈ configs, c.Same (gv (gs (g0 c))) := by
    intro c hc
    have hc0 : g0 c ∈ d0.configs := by rw [hg]; exact List.mem_map.2 ⟨c, hc, rfl⟩
    exact ((hs c hc).trans (st.settled.same _ hc0)).trans (st.valSame _ hc0)
  have hd : d.id = d0.id ∧ d.name = d0.name ∧ d.seqAware = d0.seqAware ∧ d.last = d0.last ∧ d.elems = d0.elems := by
    rw [st.result]; exact ⟨rfl, rfl, rfl, rfl, rfl⟩
  have hbl : (Domain.blank n aware x configs).id = n := rfl
  refine ⟨st.load, hd.1.trans hh.id, hd.2.1.trans hh.name, hd.2.2.1.trans hh.seqAware, hd.2.2.2.1.trans hh.last,
    by rw [st.next]; omega, ?_, ?_, ?_, confs, st.hConfs, ?_⟩
  · intro c hc
    rw [hconf] at hc
    obtain ⟨c0, hc0, rfl⟩ := List.mem_map.1 hc
    rw [(hsame c0 hc0).1, st.next]
    have : c0.id ∈ configs.map Config.id := List.mem_map.2 ⟨c0, hc0, rfl⟩
    rw [c1, List.mem_range'_1] at this
    omega
  · intro c hc r hr
    rw [hconf] at hc
    obtain ⟨c0, hc0, rfl⟩ := List.mem_map.1 hc
    rw [(hsame c0 hc0).2.2] at hr
    exact c4 c0 hc0 r hr
  · intro p i
    rw [ha, hbl, hd.2.2.2.2]
  · rw [hconf, List.map_map, ← c2]
    exact List.map_congr_left (fun c hc => (hsame c hc).2.1)

/-- The domain was read from the element. -/
def Domain.ReadFrom (root : Elem) (rd : Reader) (cs : List Criterion) (withSettings : Bool) (x : Xml) (d : Domain) : Prop :=
  ∃ n att aware att' m, (∀ p, (p, n) ∉ att) ∧ x.sequenceAware = some aware ∧
    Domain.fromXml root rd cs withSettings n att aware x = .ok (d, att', m)

theorem domainsFromXml_spec {root : Elem} (wf : root.WF) {rd : Reader} {cs : List Criterion} {withSettings : Bool}
    {xs : List Xml} {n : Nat} {att : Attached} (hatt : ∀ p i, (p, i) ∈ att → i < n) {ds : List Domain} {att' : Attached} {m : Nat}
    (h : domainsFromXml root rd cs withSettings xs n att = .ok (ds, att', m)) :
    n ≤ m ∧ (∀ d ∈ ds, d.Loading root ∧ n ≤ d.id ∧ d.id < m ∧ (∀ c ∈ d.configs, c.id < m) ∧ RulesOK cs d.configs) ∧
      (ds.map Domain.id).Nodup ∧ (∀ p i, (p, i) ∈ att' ↔ (p, i) ∈ att ∨ ∃ d ∈ ds, d.id = i ∧ p ∈ d.elems) ∧
      ds.length = xs.length ∧
      ∀ (k : Nat) x d, xs[k]? = some x → ds[k]? = some d → Domain.ReadFrom root rd cs withSettings x d := by
  induction xs generalizing n att ds with
  | nil =>
    simp only [domainsFromXml, Out.ok.injEq, Prod.mk.injEq] at h
    obtain ⟨rfl, rfl, rfl⟩ := h
    simp
  | cons x xs ih =>
    simp only [domainsFromXml] at h
    split at h
    · split at h
      · simp at h
      rename_i aware haw
      simp only [obind_ok] at h
      obtain ⟨⟨d, att1, n1⟩, h1, ⟨ds1, att2, m1⟩, h2, h3⟩ := h
      simp only [Out.ok.injEq, Prod.mk.injEq] at h3
      obtain ⟨rfl, rfl, rfl⟩ := h3
      have hfresh : ∀ p, (p, n) ∉ att := fun p hp => Nat.lt_irrefl _ (hatt p n hp)
      obtain ⟨a1, a2, a3, a4, a5, a6, a7, a8, a9, a10⟩ := Domain.fromXml_head wf hfresh h1
      obtain ⟨b1, b2, b3, b4, b5, b6⟩ := ih (att := att1) (n := n1) (by
        intro p i hp
        rw [a9] at hp
        split at hp
        · rename_i hi; subst hi; exact a6
        · exact Nat.lt_trans (hatt p i hp) a6) h2
      refine ⟨by omega, ?_, ?_, ?_, by simp [b5], ?_⟩
      · intro d' hd'
        rcases List.mem_cons.1 hd' with rfl | hd'
        · exact ⟨a1, by omega, by omega, fun c hc => Nat.lt_of_lt_of_le (a7 c hc) b1, a8⟩
        · obtain ⟨x1, x2, x3, x4, x5⟩ := b2 d' hd'
          exact ⟨x1, by omega, x3, x4, x5⟩
      · rw [List.map_cons, List.nodup_cons]
        refine ⟨?_, b3⟩
        intro hm
        obtain ⟨d', hd', he⟩ := List.mem_map.1 hm
        have := (b2 d' hd').2.1
        omega
      · intro p i
        rw [b4, a9]
        by_cases hi : i = n
        · subst hi
          simp only [if_true, List.mem_cons, exists_eq_or_imp, a2, true_and]
          constructor
          · rintro (h | h)
            · exact .inr (.inl h)
            · exact .inr (.inr h)
          · rintro (h | h | h)
            · exact absurd h (hfresh p)
            · exact .inl h
            · exact .inr h
        · have hne : ¬ d.id = i := by rw [a2]; exact fun h => hi h.symm
          simp [hi, hne]
      · intro k y d' hy hd'
        cases k with
        | zero =>
          simp only [List.getElem?_cons_zero, Option.some.injEq] at hy hd'
          subst hy hd'
          exact ⟨n, att, aware, att1, n1, hfresh, haw, h1⟩
        | succ k =>
          simp only [List.getElem?_cons_succ] at hy hd'
          exact b6 k y d' hy hd'
    · split at h <;> simp at h

theorem St.Inv.clean {root : Elem} {st : St} (h : st.Inv root) : st.deleteAllDomains.2.attached = [] := by
  simp only [St.deleteAllDomains, List.filter_eq_nil_iff, Bool.not_eq_true', Bool.not_eq_false]
  rintro ⟨p, i⟩ hp
  obtain ⟨d, hd, he, hm⟩ := (h.att p i).1 hp
  rw [List.any_eq_true]
  exact ⟨d, hd, by simp [he, hm]⟩

/-- What a full import does when it is accepted. -/
theorem St.Inv.importDomains_ok {root : Elem} (wf : root.WF) {st : St} (h : st.Inv root) (rd : Reader)
    (withSettings : Bool) {doc : Xml} (hok : (st.importDomains root rd withSettings doc).1 = .ok ()) :
    ∃ ds att n gm, domainsFromXml root rd st.criteria withSettings doc.children st.nextId [] = .ok (ds, att, n) ∧
      (st.importDomains root rd withSettings doc).2 =
        { st with domains := ds.map gm, attached := att, nextId := n } ∧
      (∀ d ∈ ds, ∃ g : Config → Config, gm d = { d with configs := d.configs.map g } ∧
        (∀ c ∈ d.configs, c.Same (g c)) ∧
        (∀ c ∈ d.configs, (g c).areas.map Area.elem = c.areas.map Area.elem) ∧
        (∀ c ∈ d.configs, ∀ p a, c.area? p = some a → ∃ a', (g c).area? p = some a' ∧ (a.valid = true → a' = a) ∧
          (a.valid = false → ∀ i, root.Owns p i → a'.value root i = st.mem.main.bit i)) ∧
        (gm d).Good root) ∧
      doc.tag = s "ConfigurableDomains" ∧ (root.name ≠ [] → doc.attrText (s "SystemClassName") = root.name) := by
  unfold St.importDomains at hok ⊢
  have hcl := h.clean
  by_cases ht : doc.tag = s "ConfigurableDomains"
  case neg => simp [ht] at hok
  by_cases hn : root.name ≠ [] ∧ doc.attrText (s "SystemClassName") ≠ root.name
  case pos => simp [hn] at hok
  have hid : st.deleteAllDomains.2.nextId = st.nextId := rfl
  simp only [ht, ne_eq, not_true_eq_false, if_false, if_neg hn, hcl, hid] at hok ⊢
  cases hd : domainsFromXml root rd st.criteria withSettings doc.children st.nextId [] with
  | err => simp [hd] at hok
  | abort => simp [hd] at hok
  | ok r =>
    obtain ⟨ds, att, n⟩ := r
    obtain ⟨_, b2, _⟩ := domainsFromXml_spec wf (by simp) hd
    have key : ∀ d ∈ ds, ∃ d', Domain.validate root st.mem.main d = some d' := by
      intro d hd
      obtain ⟨g, h1, _⟩ := Domain.validate_spec wf (b2 d hd).1 h.main
      exact ⟨_, h1⟩
    have hm := mapAll_total key
    simp only [hm]
    refine ⟨ds, att, n, fun d => (Domain.validate root st.mem.main d).getD d, rfl, rfl, ?_, trivial, ?_⟩
    · intro d hd
      obtain ⟨g, h1, h2, h3, h4, h5⟩ := Domain.validate_spec wf (b2 d hd).1 h.main
      refine ⟨g, by simp [h1], h2, h3, h4, ?_⟩
      show Domain.Good root ((Domain.validate root st.mem.main d).getD d)
      rw [h1]
      exact h5
    · intro hr
      exact Decidable.byContradiction fun he => hn ⟨hr, he⟩

/-- A full import that is refused, or that stops, leaves no domain. -/
theorem St.importDomains_fail {root : Elem} {st : St} {rd : Reader}
    {withSettings : Bool} {doc : Xml} (hok : (st.importDomains root rd withSettings doc).1 ≠ .ok ()) :
    (st.importDomains root rd withSettings doc).2 = st.deleteAllDomains.2 := by
  unfold St.importDomains at hok ⊢
  simp only at hok ⊢
  split
  · rfl
  split
  · rfl
  split
  · rfl
  · rfl
  split
  · rfl
  · rename_i h1 h2 _ _ _ _ hd _ _ hm
    rw [if_neg h1, if_neg h2, hd] at hok
    simp [hm] at hok

theorem St.Inv.importDomains {root : Elem} (wf : root.WF) {st : St} (h : st.Inv root) (rd : Reader)
    (withSettings : Bool) (doc : Xml) : (st.importDomains root rd withSettings doc).2.Inv root := by
  by_cases hok : (st.importDomains root rd withSettings doc).1 = .ok ()
  · obtain ⟨ds, att, n, gm, h1, h2, h3, _⟩ := h.importDomains_ok wf rd withSettings hok
    obtain ⟨b1, b2, b3, b4, _⟩ := domainsFromXml_spec wf (by simp) h1
    have hmap : (ds.map gm).map Domain.id = ds.map Domain.id := by
      rw [List.map_map]
      apply List.map_congr_left
      intro d hd
      obtain ⟨g, k1, _⟩ := h3 d hd
      show (gm d).id = _
      rw [k1]
    rw [h2]
    refine ⟨h.main, ?_, ?_, ?_, ?_, ?_⟩
    · intro d hd
      obtain ⟨d0, hd0, rfl⟩ := List.mem_map.1 hd
      obtain ⟨g, _, _, _, _, k5⟩ := h3 d0 hd0
      exact k5
    · show ((ds.map gm).map Domain.id).Nodup
      rw [hmap]; exact b3
    · intro d hd
      obtain ⟨d0, hd0, rfl⟩ := List.mem_map.1 hd
      obtain ⟨g, k1, k2, _⟩ := h3 d0 hd0
      rw [k1]
      refine ⟨(b2 d0 hd0).2.2.1, ?_⟩
      intro c hc
      obtain ⟨c0, hc0, rfl⟩ := List.mem_map.1 hc
      rw [(k2 c0 hc0).1]
      exact (b2 d0 hd0).2.2.2.1 c0 hc0
    · intro p i
      show (p, i) ∈ att ↔ ∃ d ∈ ds.map gm, _
      rw [b4]
      constructor
      · rintro (hp | ⟨d, hd, h1, h2⟩)
        · simp at hp
        · obtain ⟨g, k1, _⟩ := h3 d hd
          exact ⟨gm d, List.mem_map.2 ⟨d, hd, rfl⟩, by rw [k1]; exact h1, by rw [k1]; exact h2⟩
      · rintro ⟨d, hd, h1, h2⟩
        obtain ⟨d0, hd0, rfl⟩ := List.mem_map.1 hd
        obtain ⟨g, k1, _⟩ := h3 d0 hd0
        rw [k1] at h1 h2
        exact .inr ⟨d0, hd0, h1, h2⟩
    · intro d hd
      obtain ⟨d0, hd0, rfl⟩ := List.mem_map.1 hd
      obtain ⟨g, k1, k2, _⟩ := h3 d0 hd0
      rw [k1]
      intro c hc r hr
      obtain ⟨c0, hc0, rfl⟩ := List.mem_map.1 hc
      rw [(k2 c0 hc0).2.2] at hr
      exact (b2 d0 hd0).2.2.2.2 c0 hc0 r hr
  · rw [St.importDomains_fail hok]
    exact h.deleteAllDomains

theorem Elem.path_of_at {root e : Elem} {p : Pos} (h : root.at? p = some e) : ∃ path, root.path p = some path := by
  rw [Elem.path_eq h]
  exact ⟨_, rfl⟩

theorem firstValid_some {p : Pos} {cs : List Config} {c : Config} (hc : c ∈ cs) {a : Area} (ha : c.area? p = some a)
    (hv : a.valid = true) : ∃ b, firstValid p cs = some b ∧ b.valid = true := by
  cases h : firstValid p cs with
  | none =>
    unfold firstValid at h
    rw [List.find?_eq_none] at h
    exact absurd hv (h a (List.mem_filterMap.2 ⟨c, hc, ha⟩))
  | some b => exact ⟨b, rfl, List.find?_some h⟩

theorem lastWith_some {path : Str} {xs : List Xml} (h : ∃ z ∈ xs, z.attrText (s "Path") = path) :
    ∃ x, lastWith path xs = some x := by
  obtain ⟨z, hz, he⟩ := h
  cases hl : lastWith path xs with
  | some x => exact ⟨x, rfl⟩
  | none =>
    unfold lastWith at hl
    rw [List.getLast?_eq_none_iff, List.filter_eq_nil_iff] at hl
    exact absurd (by simpa using he) (hl z hz)

theorem Domain.fromXml_good {root : Elem} (wf : root.WF) {rd : Reader} {cs : List Criterion} {withSettings : Bool}
    {n : Nat} {att : Attached} (hatt : ∀ p, (p, n) ∉ att) {aware : Bool} {x : Xml} {d : Domain} {att' : Attached} {m : Nat}
    (h : Domain.fromXml root rd cs withSettings n att aware x = .ok (d, att', m)) (hx : x.Complete root withSettings) :
    d.Good root := by
  obtain ⟨confs, els, configs, d0, gs, gv, st⟩ := Domain.fromXml_stages wf hatt h
  obtain ⟨c1, c2, c3, c4⟩ := configsFromXml_spec st.hConfigs
  have hb : (Domain.blank n aware x configs).Loading root := Domain.blank_loading (by rw [c1]; exact List.nodup_range') c3
  obtain ⟨l0, hh, ha, hfrom, _⟩ := (elemsFromXml_spec wf (xs := els.children) hb (att := att)
    (by intro p; simp [Domain.blank, Domain.new, hatt])).2 d0 att' st.hElems
  refine ⟨st.load.toMid, st.load.antichain, ?_⟩
  intro c hc a ha
  have hok := st.load.ok c hc
  have hde : d.elems = d0.elems := by rw [st.result]
  have hpe : a.elem ∈ d0.elems := by rw [← hde]; exact (hok.mem _).1 (List.mem_map.2 ⟨a, ha, rfl⟩)
  have har := hok.area_iff.2 ⟨ha, rfl⟩
  have hcm : c ∈ d0.configs.map fun c => gv (gs c) := by rw [st.result] at hc; exact hc
  obtain ⟨c0, hc0, rfl⟩ := List.mem_map.1 hcm
  obtain ⟨b, hb', _⟩ := (st.load1.ok (gs c0) (List.mem_map.2 ⟨c0, hc0, rfl⟩)).area hpe
  have hv := st.validated c0 hc0 a.elem hpe b hb'
  rw [har] at hv
  simp only [Option.some.injEq] at hv
  rw [hv]
  split
  · assumption
  · -- some configuration has the element
    obtain ⟨e, he⟩ := l0.at_ _ hpe
    obtain ⟨path, hpath⟩ := Elem.path_of_at he
    rcases hfrom _ hpe with hne | ⟨ex, hex, hloc⟩
    · simp [Domain.blank, Domain.new] at hne
    obtain ⟨y, hy, z, hz, hzp⟩ := hx els st.hEls ex hex _ path hloc hpath
    obtain ⟨c1, hc1⟩ := st.settled.named y hy
    obtain ⟨hc1m, hc1n⟩ := Domain.findConfig_mem hc1
    obtain ⟨u, hu, _⟩ := (l0.ok c1 hc1m).area hpe
    have hg := st.settled.given c1 hc1m (by rw [hc1n]; exact hc1) a.elem u path hu hpath
    obtain ⟨w, hw⟩ := lastWith_some (path := path) (xs := settingsOf c1.pathName (x.settingsList withSettings))
      ⟨z, List.mem_flatMap.2 ⟨y, List.mem_filter.2 ⟨hy, by simp [hc1n]⟩, hz⟩, hzp⟩
    rw [hw] at hg
    obtain ⟨a0, a', g1, g2, g3, g4⟩ := hg
    obtain ⟨b', k1, k2⟩ := firstValid_some (p := a.elem) (cs := d0.configs.map gs) (List.mem_map.2 ⟨c1, hc1m, rfl⟩) g4
      ((Area.fromXml_spec wf g2).2 a' g3).2.2
    rw [k1]
    exact k2

/-- What an accepted import of one domain does. -/
theorem St.importDomain_ok {root : Elem} {st : St} {rd : Reader} {overwrite withSettings : Bool} {doc : Xml}
    (hok : (st.importDomain root rd overwrite withSettings doc).1 = .ok ()) :
    ∃ aware d att n, doc.tag = s "ConfigurableDomain" ∧ doc.sequenceAware = some aware ∧
      Domain.fromXml root rd st.criteria withSettings st.nextId st.attached aware doc = .ok (d, att, n) ∧
      ((st.findDomain d.name = none ∧ (st.importDomain root rd overwrite withSettings doc).2 =
          { st with domains := st.domains ++ [d], attached := att, nextId := n }) ∨
        ∃ old, st.findDomain d.name = some old ∧ overwrite = true ∧
          (st.importDomain root rd overwrite withSettings doc).2 = { st with
            domains := st.domains.filter (·.id ≠ old.id) ++ [d],
            attached := att.filter (fun x => !(x.2 == old.id && old.elems.contains x.1)),
            nextId := n }) := by
  unfold St.importDomain at hok ⊢
  by_cases ht : doc.tag = s "ConfigurableDomain"
  case neg => simp [ht] at hok
  simp only [ht, ne_eq, not_true_eq_false, if_false] at hok ⊢
  cases ha : doc.sequenceAware with
  | none => simp [ha] at hok
  | some aware =>
    simp only [ha] at hok ⊢
    cases hd : Domain.fromXml root rd st.criteria withSettings st.nextId st.attached aware doc with
    | err => simp [hd] at hok
    | abort => simp [hd] at hok
    | ok r =>
      obtain ⟨d, att, n⟩ := r
      simp only [hd] at hok ⊢
      refine ⟨aware, d, att, n, trivial, rfl, hd, ?_⟩
      cases hf : st.findDomain d.name with
      | none => exact .inl ⟨rfl, rfl⟩
      | some old =>
        simp only [hf] at hok ⊢
        cases overwrite with
        | false => simp at hok
        | true => exact .inr ⟨old, rfl, rfl, rfl⟩

/-- A refused import of one domain changes nothing. -/
theorem St.importDomain_fail {root : Elem} {st : St} {rd : Reader} {overwrite withSettings : Bool} {doc : Xml}
    (hok : (st.importDomain root rd overwrite withSettings doc).1 ≠ .ok ()) :
    (st.importDomain root rd overwrite withSettings doc).2 = st := by
  unfold St.importDomain at hok ⊢
  split
  · rfl
  rename_i ht
  rw [if_neg ht] at hok
  split
  · rfl
  rename_i aware ha
  simp only [ha] at hok
  split
  · rfl
  · rfl
  rename_i d att n hd
  simp only [hd] at hok
  split
  · rename_i hf
    simp [hf] at hok
  rename_i old hf
  simp only [hf] at hok
  cases overwrite with
  | false => rfl
  | true => simp at hok

theorem St.Inv.fresh_attached {root : Elem} {st : St} (h : st.Inv root) (p : Pos) : (p, st.nextId) ∉ st.attached := by
  intro hp
  obtain ⟨d', hd', he, _⟩ := (h.att _ _).1 hp
  have := (h.fresh d' hd').1
  omega

theorem St.Inv.importDomain {root : Elem} (wf : root.WF) {st : St} (h : st.Inv root) (rd : Reader)
    (overwrite withSettings : Bool) {doc : Xml} (hx : doc.Complete root withSettings) :
    (st.importDomain root rd overwrite withSettings doc).2.Inv root := by
  by_cases hok : (st.importDomain root rd overwrite withSettings doc).1 = .ok ()
  swap
  · rw [St.importDomain_fail hok]; exact h
  obtain ⟨aware, d, att, n, h1, h2, h3, h4⟩ := St.importDomain_ok hok
  have hfresh := h.fresh_attached
  have hg := Domain.fromXml_good wf hfresh h3 hx
  obtain ⟨a1, a2, a3, a4, a5, a6, a7, a8, a9, a10⟩ := Domain.fromXml_head wf hfresh h3
  have hold : ∀ d' ∈ st.domains, d'.id ≠ d.id := by
    intro d' hd'
    have := (h.fresh d' hd').1
    omega
  have base : ∀ ds : List Domain, (∀ d' ∈ ds, d' ∈ st.domains) → (ds.map Domain.id).Nodup →
      (∀ d' ∈ ds ++ [d], d'.Good root) ∧ ((ds ++ [d]).map Domain.id).Nodup ∧
      (∀ d' ∈ ds ++ [d], d'.id < n ∧ ∀ c ∈ d'.configs, c.id < n) ∧ (∀ d' ∈ ds ++ [d], RulesOK st.criteria d'.configs) := by
    intro ds hds hnd
    refine ⟨?_, ?_, ?_, ?_⟩
    · intro d' hd'
      simp only [List.mem_append, List.mem_cons, List.not_mem_nil, or_false] at hd'
      rcases hd' with hd' | rfl
      · exact h.good d' (hds d' hd')
      · exact hg
    · rw [List.map_append, List.nodup_append]
      refine ⟨hnd, by simp, ?_⟩
      intro i hi j hj
      simp only [List.map_cons, List.map_nil, List.mem_cons, List.not_mem_nil, or_false] at hj
      obtain ⟨d', hd', rfl⟩ := List.mem_map.1 hi
      rw [hj]
      exact hold d' (hds d' hd')
    · intro d' hd'
      simp only [List.mem_append, List.mem_cons, List.not_mem_nil, or_false] at hd'
      rcases hd' with hd' | rfl
      · obtain ⟨k1, k2⟩ := h.fresh d' (hds d' hd')
        exact ⟨by omega, fun c hc => Nat.lt_trans (k2 c hc) a6⟩
      · exact ⟨by omega, a7⟩
    · intro d' hd'
      simp only [List.mem_append, List.mem_cons, List.not_mem_nil, or_false] at hd'
      rcases hd' with hd' | rfl
      · exact h.rules d' (hds d' hd')
      · exact a8
  have hatt : ∀ p i, (p, i) ∈ att ↔ ∃ d' ∈ st.domains ++ [d], d'.id = i ∧ p ∈ d'.elems := by
    intro p i
    rw [a9]
    split
    · rename_i hi
      subst hi
      constructor
      · intro hp; exact ⟨d, by simp, a2, hp⟩
      · rintro ⟨d', hd', he, hp⟩
        simp only [List.mem_append, List.mem_cons, List.not_mem_nil, or_false] at hd'
        rcases hd' with hd' | rfl
        · exact absurd (he.trans a2.symm) (hold d' hd')
        · exact hp
    · rename_i hi
      rw [h.att]
      constructor
      · rintro ⟨d', hd', x⟩; exact ⟨d', by simp [hd'], x⟩
      · rintro ⟨d', hd', he, hp⟩
        simp only [List.mem_append, List.mem_cons, List.not_mem_nil, or_false] at hd'
        rcases hd' with hd' | rfl
        · exact ⟨d', hd', he, hp⟩
        · exact absurd (he.symm.trans a2) hi
  rcases h4 with ⟨_, h5⟩ | ⟨old, ho, _, h5⟩
  · rw [h5]
    obtain ⟨b1, b2, b3, b4⟩ := base st.domains (fun _ h => h) h.ids
    exact ⟨h.main, b1, b2, b3, hatt, b4⟩
  · rw [h5]
    have hom := (St.findDomain_mem ho).1
    obtain ⟨b1, b2, b3, b4⟩ := base (st.domains.filter (·.id ≠ old.id)) (fun d' hd' => (List.mem_filter.1 hd').1)
      (h.ids.sublist (List.filter_sublist.map _))
    refine ⟨h.main, b1, b2, b3, ?_, b4⟩
    intro p i
    show (p, i) ∈ att.filter _ ↔ ∃ d' ∈ st.domains.filter (·.id ≠ old.id) ++ [d], _
    simp only [List.mem_filter, hatt, List.mem_append, List.mem_cons, List.not_mem_nil, or_false,
      Bool.and_eq_false_iff, beq_eq_false_iff_ne, List.contains_eq_mem, decide_eq_false_iff_not, ne_eq, decide_not,
      Bool.not_eq_eq_eq_not, Bool.not_true]
    constructor
    · rintro ⟨⟨d', hd', he, hp⟩, hn⟩
      rcases hd' with hd' | rfl
      · by_cases hdo : d'.id = old.id
        · have := nodup_map_inj h.ids hd' hom hdo
          subst this
          rcases hn with hn | hn
          · exact absurd he.symm hn
          · exact absurd hp hn
        · exact ⟨d', .inl ⟨hd', hdo⟩, he, hp⟩
      · exact ⟨d', .inr rfl, he, hp⟩
    · rintro ⟨d', hd', he, hp⟩
      rcases hd' with ⟨hd', hdo⟩ | rfl
      · exact ⟨⟨d', .inl hd', he, hp⟩, .inl (by rw [← he]; exact hdo)⟩
      · exact ⟨⟨d', .inr rfl, he, hp⟩, .inl (by rw [← he]; exact fun hq => hold old hom hq.symm)⟩

end PF
