import Verif.Lemmas.Schema

/-! Helper lemmas: exported domains match the schemas. -/

namespace PF
open Spec

theorem Spec.NMToken.plain {t : Str} (h : NMToken t) : ∀ c ∈ t, c ≠ '\n' ∧ c ≠ '\r' ∧ c ≠ '/' := by
  have k1 : nameChar '\n' = false := by decide
  have k2 : nameChar '\r' = false := by decide
  have k3 : nameChar '/' = false := by decide
  intro c hc
  rcases h.2 c hc with hn | rfl
  · refine ⟨?_, ?_, ?_⟩ <;> rintro rfl <;> simp_all
  · decide

theorem Spec.NCName.token {t : Str} (h : NCName t) : NMToken t := by
  obtain ⟨c, cs, rfl, h1, h2⟩ := h
  refine ⟨by simp, fun d hd => .inl ?_⟩
  rcases List.mem_cons.1 hd with rfl | hd
  · simp [nameChar, h1]
  · exact h2 d hd

theorem Elem.path_pattern : ∀ {p : Pos} {root e : Elem} {path : Str}, root.TokenNames → root.at? p = some e → root.path p = some path →
    ∃ u c, path = '/' :: (u ++ [c]) ∧ (∀ d ∈ u, d ≠ '\n' ∧ d ≠ '\r') ∧ c ≠ '/'
  | [], root, e, path, ht, _, hp => by
    have hpath : path = '/' :: root.pathName := by cases root; simpa [Elem.path] using hp.symm
    rw [ht.pathName] at hpath
    have hne := ht.here.1
    refine ⟨root.name.dropLast, root.name.getLast hne, ?_, ?_, ?_⟩
    · rw [List.dropLast_append_getLast hne]; exact hpath
    · intro d hd
      have := ht.here.plain d (List.dropLast_subset _ hd)
      exact ⟨this.1, this.2.1⟩
    · exact (ht.here.plain _ (List.getLast_mem hne)).2.2
  | i :: p, .mk n k sy cs, e, path, ht, he, hp => by
    simp only [Elem.path] at hp
    simp only [Elem.at?] at he
    cases hc : cs[i]? with
    | none => rw [hc] at hp; simp at hp
    | some c =>
      rw [hc] at hp he
      simp only at hp he
      cases hq : c.path p with
      | none => rw [hq] at hp; simp at hp
      | some t =>
        rw [hq] at hp
        simp only [Option.map_some, Option.some.injEq] at hp
        obtain ⟨u, d, rfl, hu, hd⟩ := Elem.path_pattern (ht.child hc) he hq
        rw [ht.pathName] at hp
        refine ⟨n ++ '/' :: u, d, ?_, ?_, hd⟩
        · rw [← hp]; simp [Elem.name]
        · intro x hx
          rcases List.mem_append.1 hx with hx | hx
          · have := ht.here.plain x hx
            exact ⟨this.1, this.2.1⟩
          · rcases List.mem_cons.1 hx with rfl | hx
            · decide
            · exact hu x hx

theorem Elem.TokenNames.path {root e : Elem} {p : Pos} {path : Str} (ht : root.TokenNames) (he : root.at? p = some e)
    (hp : root.path p = some path) : PathPattern path := by
  obtain ⟨u, c, rfl, hu, hc⟩ := Elem.path_pattern ht he hp
  refine .seq (t := ['/']) (Rx.matches_lit _) (.seq (Rx.matches_star_set ?_) (.set (by simpa using hc)))
  intro d hd
  simpa using hu d hd

/-! ### Rules and configurations -/

mutual
theorem Rule.toXml_valid {cs : List Criterion} : (r : Rule) → {x : Xml} → RuleNames cs r → r.toXml cs = some x →
    RuleElement x ∧ (∀ all ch, r = .compound all ch → x.tag = s "CompoundRule")
  | .crit i verb v, x, hn, h => by
    simp only [Rule.toXml] at h
    cases hn with | crit hn =>
    cases hc : cs[i]? with
    | none => rw [hc] at h; simp at h
    | some c =>
      rw [hc] at h
      simp only [Option.some.injEq] at h
      subst h
      refine ⟨.crit rfl ⟨?_, ?_⟩ ⟨c.name, rfl, hn c hc⟩ ⟨verb.text, rfl, ?_⟩ ⟨_, rfl, trivial⟩ rfl rfl, by simp⟩
      · simp only [Xml.attrs, List.map_cons, List.map_nil]; decide
      · simp [Xml.attrs]
      · cases verb
        · exact .inl rfl
        · exact .inr (.inl rfl)
        · exact .inr (.inr (.inl rfl))
        · exact .inr (.inr (.inr rfl))
  | .compound all ch, x, hn, h => by
    simp only [Rule.toXml] at h
    cases hn with | compound hn =>
    cases hc : Rule.toXmlAll cs ch with
    | none => rw [hc] at h; simp at h
    | some xs =>
      rw [hc] at h
      simp only [Option.some.injEq] at h
      subst h
      refine ⟨.compound rfl ⟨?_, ?_⟩ ?_ rfl (Rule.toXmlAll_valid ch hn hc), fun _ _ _ => rfl⟩
      · simp [Xml.attrs]
      · simp [Xml.attrs]
      · intro t ht
        have e : (if all = true then s "All" else s "Any") = t := by simpa [Xml.attr, Xml.attrs] using ht
        rw [← e]
        split
        · exact .inr rfl
        · exact .inl rfl
theorem Rule.toXmlAll_valid {cs : List Criterion} : (rs : List Rule) → {xs : List Xml} → (∀ r ∈ rs, RuleNames cs r) →
    Rule.toXmlAll cs rs = some xs → ∀ y ∈ xs, RuleElement y
  | [], xs, _, h => by
    simp only [Rule.toXmlAll, Option.some.injEq] at h
    subst h
    simp
  | r :: rs, xs, hn, h => by
    simp only [Rule.toXmlAll] at h
    cases h1 : r.toXml cs with
    | none => rw [h1] at h; simp at h
    | some x =>
      cases h2 : Rule.toXmlAll cs rs with
      | none => rw [h1, h2] at h; simp at h
      | some ys =>
        rw [h1, h2] at h
        simp only [Option.some.injEq] at h
        subst h
        intro y hy
        rcases List.mem_cons.1 hy with rfl | hy
        · exact (Rule.toXml_valid r (hn r (by simp)) h1).1
        · exact Rule.toXmlAll_valid rs (fun r' hr' => hn r' (by simp [hr'])) h2 y hy
end

theorem nameAttrs_ne {n : Str} (h : n ≠ []) : nameAttrs n = [(s "Name", n)] := by simp [nameAttrs, h]

theorem Spec.NCName.ne {t : Str} (h : NCName t) : t ≠ [] := h.token.1

theorem Config.toXml_valid {cs : List Criterion} {c : Config} {x : Xml} (hn : NCName c.name)
    (hr : ∀ r, c.rule = some r → RuleNames cs r ∧ ∃ all ch, r = .compound all ch) (h : c.toXml cs = some x) :
    ConfigurationElement x ∧ x.attr (s "Name") = some c.name := by
  have key : ∀ xs : List Xml, (xs = [] ∨ ∃ y, xs = [y] ∧ y.tag = s "CompoundRule" ∧ RuleElement y) →
      ConfigurationElement (.mk (s "Configuration") (nameAttrs c.name) [] xs) ∧
      (Xml.mk (s "Configuration") (nameAttrs c.name) [] xs).attr (s "Name") = some c.name := by
    intro xs hxs
    rw [nameAttrs_ne hn.ne]
    have ha : (Xml.mk (s "Configuration") [(s "Name", c.name)] [] xs).attr (s "Name") = some c.name := by simp [Xml.attr, Xml.attrs]
    exact ⟨⟨rfl, ⟨by simp [Xml.attrs], by simp [Xml.attrs]⟩, ⟨_, ha, hn⟩, rfl, hxs⟩, ha⟩
  unfold Config.toXml at h
  cases hc : c.rule with
  | none =>
    rw [hc] at h
    simp only [Option.some.injEq] at h
    subst h
    exact key [] (.inl rfl)
  | some r =>
    rw [hc] at h
    cases hx : r.toXml cs with
    | none => simp [hx] at h
    | some y =>
      simp only [hx, Option.map_some, Option.some.injEq] at h
      subst h
      obtain ⟨h1, all, ch, h2⟩ := hr r hc
      obtain ⟨h3, h4⟩ := Rule.toXml_valid r h1 hx
      exact key [y] (.inr ⟨y, rfl, h4 all ch h2, h3⟩)

theorem configsToXml_valid {cs : List Criterion} : ∀ {l : List Config} {xs : List Xml}, (∀ c ∈ l, NCName c.name) →
    (∀ c ∈ l, ∀ r, c.rule = some r → RuleNames cs r ∧ ∃ all ch, r = .compound all ch) → configsToXml cs l = .ok xs →
    (∀ y ∈ xs, ConfigurationElement y) ∧ xs.map (fun y => y.attr (s "Name")) = l.map fun c => some c.name
  | [], xs, _, _, h => by
    simp only [configsToXml, Out.ok.injEq] at h
    subst h
    simp
  | c :: l, xs, hn, hr, h => by
    simp only [configsToXml] at h
    cases hx : c.toXml cs with
    | none => rw [hx] at h; simp at h
    | some x =>
      rw [hx] at h
      obtain ⟨ys, hy, h⟩ := Out.of_bind_ok h
      simp only [Out.ok.injEq] at h
      subst h
      obtain ⟨h1, h2⟩ := configsToXml_valid (fun c' hc' => hn c' (by simp [hc'])) (fun c' hc' => hr c' (by simp [hc'])) hy
      obtain ⟨h3, h4⟩ := Config.toXml_valid (hn c (by simp)) (hr c (by simp)) hx
      refine ⟨?_, by simp [h2, h4]⟩
      intro y hy
      rcases List.mem_cons.1 hy with rfl | hy
      · exact h3
      · exact h1 y hy

/-! ### Elements and settings -/

theorem path_attrs (path : Str) (xs : List Xml) :
    OnlyAttrs (.mk (s "ConfigurableElement") [(s "Path", path)] [] xs) [s "Path"] ∧
    (Xml.mk (s "ConfigurableElement") [(s "Path", path)] [] xs).attr (s "Path") = some path :=
  ⟨⟨by simp [Xml.attrs], by simp [Xml.attrs]⟩, by simp [Xml.attr, Xml.attrs]⟩

theorem elemsToXml_valid {root : Elem} (ht : root.TokenNames) : ∀ {ps : List Pos} {xs : List Xml},
    (∀ p ∈ ps, ∃ e, root.at? p = some e) → elemsToXml root ps = .ok xs →
    (∀ y ∈ xs, PathElement y) ∧ xs.map (fun y => y.attr (s "Path")) = ps.map root.path
  | [], xs, _, h => by
    simp only [elemsToXml, Out.ok.injEq] at h
    subst h
    simp
  | p :: ps, xs, hat, h => by
    simp only [elemsToXml] at h
    cases hp : root.path p with
    | none => rw [hp] at h; simp at h
    | some path =>
      rw [hp] at h
      obtain ⟨ys, hy, h⟩ := Out.of_bind_ok h
      simp only [Out.ok.injEq] at h
      subst h
      obtain ⟨h1, h2⟩ := elemsToXml_valid ht (fun q hq => hat q (by simp [hq])) hy
      obtain ⟨e, he⟩ := hat p (by simp)
      obtain ⟨h3, h4⟩ := path_attrs path []
      refine ⟨?_, by rw [List.map_cons, List.map_cons, h2, h4, hp]⟩
      intro y hy
      rcases List.mem_cons.1 hy with rfl | hy
      · exact ⟨rfl, h3, ⟨path, h4, ht.path he hp⟩, rfl, rfl⟩
      · exact h1 y hy

theorem Elem.GoodNames.at {root e : Elem} {p : Pos} (g : root.GoodNames) (h : root.at? p = some e) : e.GoodNames := by
  induction p generalizing root with
  | nil => cases root; simp only [Elem.at?, Option.some.injEq] at h; subst h; exact g
  | cons i p ih =>
    cases root with | mk n k sy cs =>
    simp only [Elem.at?] at h
    cases hc : cs[i]? with
    | none => rw [hc] at h; simp at h
    | some c =>
      rw [hc] at h
      exact ih (g.child (by simpa [Elem.children] using hc)) h

theorem Elem.at_append {root e f : Elem} {p q : Pos} (h : root.at? p = some e) (hq : e.at? q = some f) :
    root.at? (p ++ q) = some f := by
  induction p generalizing root with
  | nil => cases root; simp only [Elem.at?, Option.some.injEq] at h; subst h; exact hq
  | cons i p ih =>
    cases root with | mk n k sy cs =>
    simp only [Elem.at?, List.cons_append] at h ⊢
    cases hc : cs[i]? with
    | none => rw [hc] at h; simp at h
    | some c => rw [hc] at h; exact ih h

theorem Elem.TokenNames.at {root e : Elem} {p : Pos} (ht : root.TokenNames) (h : root.at? p = some e) : e.TokenNames :=
  fun q f hf => ht (p ++ q) f (Elem.at_append h hf)

theorem Area.toXml_valid {root : Elem} (wf : root.WF) (g : root.GoodNames) (ht : root.TokenNames) {ctx : Ctx} {a : Area} {x : Xml}
    (hk : ∃ e, root.at? a.elem = some e ∧ e.Known)
    (hp : ∀ e, root.at? a.elem = some e → ∀ q f o, e.at? q = some f → e.offset 0 q = some o → f.kind.Presentable ctx a.board o)
    (h : a.toXml root ctx = .ok x) : SettingsElement x ∧ x.attr (s "Path") = root.path a.elem := by
  obtain ⟨e, he, hk⟩ := hk
  unfold Area.toXml at h
  rw [he] at h
  cases ho : root.offset 0 a.elem with
  | none => rw [ho] at h; simp at h
  | some off =>
    cases hpath : root.path a.elem with
    | none => rw [ho, hpath] at h; simp at h
    | some path =>
      rw [ho, hpath] at h
      obtain ⟨y, hy, h⟩ := Out.of_bind_ok h
      simp only [Out.ok.injEq] at h
      subst h
      obtain ⟨h3, h4⟩ := path_attrs path [y.xml]
      refine ⟨⟨rfl, h3, ⟨path, h4, ht.path he hpath⟩, rfl, y.xml, rfl, ?_⟩, h4⟩
      rw [Elem.exportXml_base e (Nat.le_refl off), Nat.sub_self] at hy
      rcases wf.at_cases he with hw | ⟨nm, t, sy, rfl, _⟩
      · exact .inr (Elem.export_valid hk hw (g.at he) (ht.at he) (hp e he) hy)
      · exact .inl (Elem.export_bit (ht.at he).here hy)

theorem areasToXml_valid {root : Elem} (wf : root.WF) (g : root.GoodNames) (ht : root.TokenNames) {ctx : Ctx} :
    ∀ {l : List Area} {xs : List Xml}, (∀ a ∈ l, ∃ e, root.at? a.elem = some e ∧ e.Known) →
    (∀ a ∈ l, ∀ e, root.at? a.elem = some e → ∀ q f o, e.at? q = some f → e.offset 0 q = some o → f.kind.Presentable ctx a.board o) →
    areasToXml root ctx l = .ok xs →
    (∀ y ∈ xs, SettingsElement y) ∧ xs.map (fun y => y.attr (s "Path")) = l.map fun a => root.path a.elem
  | [], xs, _, _, h => by
    simp only [areasToXml, Out.ok.injEq] at h
    subst h
    simp
  | a :: l, xs, hk, hp, h => by
    simp only [areasToXml] at h
    obtain ⟨x, hx, h⟩ := Out.of_bind_ok h
    obtain ⟨ys, hy, h⟩ := Out.of_bind_ok h
    simp only [Out.ok.injEq] at h
    subst h
    obtain ⟨h1, h2⟩ := areasToXml_valid wf g ht (fun a' ha' => hk a' (by simp [ha'])) (fun a' ha' => hp a' (by simp [ha'])) hy
    obtain ⟨h3, h4⟩ := Area.toXml_valid wf g ht (hk a (by simp)) (hp a (by simp)) hx
    refine ⟨?_, by rw [List.map_cons, List.map_cons, h2, h4]⟩
    intro y hy
    rcases List.mem_cons.1 hy with rfl | hy
    · exact h3
    · exact h1 y hy

/-- The settings of a configuration in a document. -/
def SettingsOf (root : Elem) (c : Config) (y : Xml) : Prop :=
  ConfigurationSettings y ∧ y.attr (s "Name") = some c.name ∧
  y.children.map (fun z => z.attr (s "Path")) = c.areas.map fun a => root.path a.elem

theorem nodup_paths {root : Elem} {E : List Pos} (hf : PathsFound root E) {l : List Pos} (hl : ∀ p ∈ l, p ∈ E) (hn : l.Nodup) :
    (l.map root.path).Nodup := by
  refine List.Nodup.map_on ?_ hn
  intro p hp q hq e
  obtain ⟨t, h1, _⟩ := hf p (hl p hp)
  exact hf.inj (hl p hp) (hl q hq) h1 (by rw [← e]; exact h1)

theorem attrs_some {n : Str} {zs : List Xml} (h : ∀ z ∈ zs, ∃ t, z.attr n = some t) :
    (zs.map fun y => y.attr n) = (zs.filterMap fun y => y.attr n).map some := by
  induction zs with
  | nil => rfl
  | cons z zs ih =>
    obtain ⟨t, htt⟩ := h z (by simp)
    rw [List.map_cons, List.filterMap_cons_some (f := fun y : Xml => y.attr n) htt, List.map_cons, htt,
      ih fun y hy => h y (by simp [hy])]

theorem settingsToXml_valid {root : Elem} (wf : root.WF) (g : root.GoodNames) (ht : root.TokenNames) {ctx : Ctx} {E : List Pos}
    (hE : ∀ p ∈ E, ∃ e, root.at? p = some e ∧ e.Known) (hf : PathsFound root E) : ∀ {l : List Config} {xs : List Xml},
    (∀ c ∈ l, NCName c.name) → (∀ c ∈ l, c.OK root E) →
    (∀ c ∈ l, ∀ a ∈ c.areas, ∀ e, root.at? a.elem = some e →
      ∀ q f o, e.at? q = some f → e.offset 0 q = some o → f.kind.Presentable ctx a.board o) →
    settingsToXml root ctx l = .ok xs → ∀ y ∈ xs, ∃ c ∈ l, SettingsOf root c y
  | [], xs, _, _, _, h => by
    simp only [settingsToXml, Out.ok.injEq] at h
    subst h
    simp
  | c :: l, xs, hn, hok, hp, h => by
    simp only [settingsToXml] at h
    obtain ⟨zs, hz, h⟩ := Out.of_bind_ok h
    obtain ⟨ys, hy, h⟩ := Out.of_bind_ok h
    simp only [Out.ok.injEq] at h
    subst h
    have ih := settingsToXml_valid wf g ht hE hf (fun c' hc' => hn c' (by simp [hc'])) (fun c' hc' => hok c' (by simp [hc']))
      (fun c' hc' => hp c' (by simp [hc'])) hy
    have ok := hok c (by simp)
    have hmem : ∀ a ∈ c.areas, a.elem ∈ E := fun a ha => (ok.mem _).1 (List.mem_map.2 ⟨a, ha, rfl⟩)
    obtain ⟨h1, h2⟩ := areasToXml_valid wf g ht (fun a ha => hE _ (hmem a ha)) (hp c (by simp)) hz
    intro y hy
    rcases List.mem_cons.1 hy with rfl | hy
    · refine ⟨c, by simp, ⟨rfl, ⟨by simp [Xml.attrs], by simp [Xml.attrs]⟩, ⟨c.name, by simp [Xml.attr, Xml.attrs], hn c (by simp)⟩, rfl, h1, ?_⟩,
        by simp [Xml.attr, Xml.attrs], h2⟩
      have hnd : (zs.map fun y => y.attr (s "Path")).Nodup := by
        rw [h2]
        have := nodup_paths hf (l := c.areas.map Area.elem) (fun p hp => (ok.mem p).1 hp) ok.nodup
        rwa [List.map_map] at this
      show (zs.filterMap fun y => y.attr (s "Path")).Nodup
      rw [attrs_some fun z hz => by obtain ⟨t, htt, _⟩ := (h1 z hz).path; exact ⟨t, htt⟩] at hnd
      exact (List.nodup_map_iff (Option.some_injective _)).1 hnd
    · obtain ⟨c', hc', hs⟩ := ih y hy
      exact ⟨c', by simp [hc'], hs⟩

/-! ### Domains -/

theorem Domain.toXml_valid {root : Elem} (wf : root.WF) (g : root.GoodNames) (ht : root.TokenNames) {cs : List Criterion}
    {ctx : Ctx} {ws : Bool} {d : Domain} {x : Xml} (hg : d.Good root) (hr : RulesOK cs d.configs) (hf : PathsFound root d.elems)
    (hnd : (d.configs.map Config.name).Nodup) (hk : DomainKnown root cs d) (hs : ws = true → SettingsKnown root ctx d)
    (h : d.toXml root cs ctx ws = .ok x) : DomainElement x ∧ x.attr (s "Name") = some d.name := by
  unfold Domain.toXml at h
  obtain ⟨confs, hconfs, h⟩ := Out.of_bind_ok h
  obtain ⟨els, hels, h⟩ := Out.of_bind_ok h
  obtain ⟨sets, hsets, h⟩ := Out.of_bind_ok h
  simp only [Out.ok.injEq] at h
  subst h
  have hrc : ∀ c ∈ d.configs, ∀ r, c.rule = some r → RuleNames cs r ∧ ∃ all ch, r = .compound all ch := fun c hc r hcr =>
    ⟨hk.rules c hc r hcr, (hr c hc r hcr).2⟩
  obtain ⟨c1, c2⟩ := configsToXml_valid hk.configNames hrc hconfs
  obtain ⟨e1, e2⟩ := elemsToXml_valid ht hg.at_ hels
  rw [nameAttrs_ne hk.name.ne]
  refine ⟨⟨rfl, ⟨?_, ?_⟩, ⟨d.name, by simp [Xml.attr, Xml.attrs], hk.name⟩, ?_, rfl, _, _, sets, rfl, ⟨rfl, rfl, rfl⟩, ?_, c1, ?_,
    ⟨rfl, rfl, rfl⟩, e1, ?_, ?_⟩, by simp [Xml.attr, Xml.attrs]⟩
  · simp only [Xml.attrs, List.map_append, List.map_cons, List.map_nil]; decide
  · simp [Xml.attrs]
  · intro t htt
    have e : (if d.seqAware = true then s "true" else s "false") = t := by
      simp only [Xml.attr, Xml.attrs] at htt
      simpa [s] using htt
    rw [← e]
    split
    · exact .inl rfl
    · exact .inr (.inl rfl)
  · intro e
    change confs = [] at e
    rw [e] at c2
    exact hk.configs (List.map_eq_nil_iff.1 c2.symm)
  · show (confs.map fun y => y.attr (s "Name")).Nodup
    rw [c2]
    have := (List.nodup_map_iff (Option.some_injective Str)).2 hnd
    rwa [List.map_map] at this
  · show (els.map fun y => y.attr (s "Path")).Nodup
    rw [e2]
    exact nodup_paths hf (fun _ h => h) hg.nodup
  · cases ws with
    | false =>
      simp only [Bool.false_eq_true, if_false, Out.ok.injEq] at hsets
      exact .inl hsets.symm
    | true =>
      simp only [if_true] at hsets
      obtain ⟨ys, hy, hsets⟩ := Out.of_bind_ok hsets
      simp only [Out.ok.injEq] at hsets
      subst hsets
      refine .inr ⟨_, rfl, ⟨rfl, rfl, rfl⟩, ?_⟩
      intro y hy'
      obtain ⟨c, hc, h1, h2, h3⟩ := settingsToXml_valid wf g ht hk.elems hf hk.configNames hg.ok (hs rfl) hy y hy'
      refine ⟨h1, ?_, ?_⟩
      · have : some c.name ∈ confs.map fun y => y.attr (s "Name") := by rw [c2]; exact List.mem_map.2 ⟨c, hc, rfl⟩
        obtain ⟨z, hz, hzn⟩ := List.mem_map.1 this
        exact ⟨z, hz, by rw [hzn, h2]⟩
      · intro z hz
        have : z.attr (s "Path") ∈ c.areas.map fun a => root.path a.elem := by rw [← h3]; exact List.mem_map.2 ⟨z, hz, rfl⟩
        obtain ⟨a, ha, hap⟩ := List.mem_map.1 this
        have hm : a.elem ∈ d.elems := ((hg.ok c hc).mem _).1 (List.mem_map.2 ⟨a, ha, rfl⟩)
        have : z.attr (s "Path") ∈ els.map fun y => y.attr (s "Path") := by
          rw [e2, ← hap]; exact List.mem_map.2 ⟨_, hm, rfl⟩
        obtain ⟨y', hy', hyn⟩ := List.mem_map.1 this
        exact ⟨y', hy', hyn⟩

theorem domainsToXml_valid {root : Elem} {cs : List Criterion} {ctx : Ctx} {ws : Bool} {l : List Domain} {xs : List Xml}
    (hv : ∀ d ∈ l, ∀ x, d.toXml root cs ctx ws = .ok x → DomainElement x ∧ x.attr (s "Name") = some d.name)
    (h : domainsToXml root cs ctx ws l = .ok xs) :
    (∀ y ∈ xs, DomainElement y) ∧ xs.map (fun y => y.attr (s "Name")) = l.map fun d => some d.name := by
  induction l generalizing xs with
  | nil =>
    simp only [domainsToXml, Out.ok.injEq] at h
    subst h
    simp
  | cons d l ih =>
    simp only [domainsToXml] at h
    obtain ⟨x, hx, h⟩ := Out.of_bind_ok h
    obtain ⟨ys, hy, h⟩ := Out.of_bind_ok h
    simp only [Out.ok.injEq] at h
    subst h
    obtain ⟨h1, h2⟩ := ih (fun d' hd' => hv d' (by simp [hd'])) hy
    obtain ⟨h3, h4⟩ := hv d (by simp) x hx
    refine ⟨?_, by simp [h2, h4]⟩
    intro y hy
    rcases List.mem_cons.1 hy with rfl | hy
    · exact h3
    · exact h1 y hy

end PF
