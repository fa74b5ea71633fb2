import Verif.Props.DomainHistory
import Verif.Props.DomainApply
import Verif.Props.Manager
import Verif.Lemmas.DomainListing

/-!
# The listings (C72, C73, C74)
-/

namespace PF
open Spec

/-! ## C72: the structure -/

theorem Designates.at {root : Elem} {path : Str} {p : Pos} (h : Designates root path p) : ∃ e, root.at? p = some e := by
  rcases h with h | ⟨_, _, rfl⟩
  · exact Elem.locate_at h
  · exact ⟨root, by cases root; rfl⟩

/-- C72: `listElements` gives the element that the path designates and its children, in order. -/
theorem C72_elements {root : Elem} {path : Str} {p : Pos} (h : Designates root path p) :
    ∃ e, root.at? p = some e ∧ root.listText false path =
      .ok (Lines ((p :: (List.range e.children.length).map fun i => p ++ [i]).map (ElementLine root))) := by
  obtain ⟨e, he⟩ := Designates.at h
  refine ⟨e, he, ?_⟩
  unfold Elem.listText
  rw [locateOrRoot_iff.2 h]
  simp only [he, Elem.listed_flat]
  rw [mapAll_some (g := ElementLine root), Option.map_some, linesText_eq]
  · rfl
  · intro q hq
    rcases List.mem_cons.1 hq with rfl | hq
    · exact qualifiedPath_some he
    · obtain ⟨i, hi, rfl⟩ := List.mem_map.1 hq
      rw [List.mem_range] at hi
      refine qualifiedPath_some (f := e.children[i]) ?_
      rw [Elem.at?_append, he, Option.bind_some, Elem.at?_single, List.getElem?_eq_getElem hi]

/-- C72: `listParameters` gives, in the order of the document and each one once, the elements at or below
the one designated that have no children; every parameter is one of them. -/
theorem C72_parameters {root : Elem} (wf : root.WF) {path : Str} {p : Pos} (h : Designates root path p) :
    ∃ ps, DocumentOrder ps ∧
      (∀ q, q ∈ ps ↔ p <+: q ∧ ∃ f, root.at? q = some f ∧ f.children = []) ∧
      (∀ q f, p <+: q → root.at? q = some f → f.kind.isParameter = true → q ∈ ps) ∧
      root.listText true path = .ok (Lines (ps.map (ElementLine root))) := by
  obtain ⟨e, he⟩ := Designates.at h
  have hmem : ∀ q, q ∈ (e.inTree p).filter root.leafAt ↔ p <+: q ∧ ∃ f, root.at? q = some f ∧ f.children = [] := by
    intro q
    rw [List.mem_filter, Elem.inTree_iff he]
    constructor
    · rintro ⟨⟨h1, f, hf⟩, h2⟩
      refine ⟨h1, f, hf, ?_⟩
      simpa [Elem.leafAt, hf] using h2
    · rintro ⟨h1, f, hf, h2⟩
      exact ⟨⟨h1, f, hf⟩, by simp [Elem.leafAt, hf, h2]⟩
  refine ⟨(e.inTree p).filter root.leafAt, (e.inTree_ordered p).filter _, hmem, ?_, ?_⟩
  · intro q f hq hf hpar
    refine (hmem q).2 ⟨hq, f, hf, ?_⟩
    cases hc : f.children with
    | nil => rfl
    | cons c cs =>
      have := wf.param_leaf hf hpar (q := q ++ [0]) (g := c)
        (by rw [Elem.at?_append, hf, Option.bind_some, Elem.at?_single, hc]; rfl) (by simp)
      simp at this
  · unfold Elem.listText
    rw [locateOrRoot_iff.2 h]
    simp only [he]
    rw [Elem.listed_leaves root e p 0 he, mapAll_some (g := ElementLine root), Option.map_some, linesText_eq]
    · rfl
    · intro q hq
      obtain ⟨_, f, hf, _⟩ := (hmem q).1 hq
      exact qualifiedPath_some hf

/-- C72: a path that designates nothing is an error. -/
theorem C72_nothing_designated {root : Elem} {path : Str} (dive : Bool) (h : ∀ p, ¬ Designates root path p) :
    root.listText dive path = .err := by
  unfold Elem.listText
  cases hl : root.locateOrRoot path with
  | none => rfl
  | some p => exact absurd (locateOrRoot_iff.1 hl) (h p)

/-- C72: the paths listed lead back to the elements. -/
theorem C72_paths_lead_back {root : Elem} (g : root.GoodNames) (hn : root.name ≠ []) {q : Pos} {f : Elem}
    (hf : root.at? q = some f) : root.locate (pathOf root q) = some q := by
  obtain ⟨t, h1, h2⟩ := C31_path_round_trip root g hn hf
  unfold pathOf
  rw [h1]
  exact h2

/-- C72: `getElementSize` is the number of bytes of the element. -/
theorem C72_size {e : MEnv} (wf : e.env.root.WF) {cs : List Criterion} {m : Mgr} (h : MReachable e cs m) {path : Str}
    {p : Pos} (hl : e.env.root.locate path = some p) :
    ∃ bs, e.env.root.getBytes m.st.mem.main p = .ok bs ∧
      e.env.root.sizeText path = .ok (natText bs.length ++ s " byte(s)") := by
  obtain ⟨f, hf⟩ := Elem.locate_at hl
  obtain ⟨o, ho⟩ := Elem.offset_of_at (off := 0) hf
  obtain ⟨b', h1, _⟩ := C32_set_then_get e.env.root wf m.st.mem.main (h.reachable.inv wf).main hf ho
    (List.replicate f.footprint 0) (by simp)
  have hw : ∃ b'', m.st.mem.main.write o (List.replicate f.footprint 0) = some b'' := by
    simp only [Elem.setBytes, hf, ho, List.length_replicate, ne_eq, not_true_eq_false, if_false] at h1
    split at h1
    · rename_i b'' hb; exact ⟨b'', hb⟩
    · simp at h1
  obtain ⟨b'', hw⟩ := hw
  have hroom : o + f.footprint ≤ m.st.mem.main.length := by
    have := (Board.write_length hw).2
    simpa using this
  refine ⟨(m.st.mem.main.drop o).take f.footprint, ?_, ?_⟩
  · simp [Elem.getBytes, hf, ho, Board.read, hroom]
  · unfold Elem.sizeText
    rw [hl]
    simp only [hf, Option.map_some, Out.orAbort, List.length_take, List.length_drop]
    rw [Nat.min_eq_left (by omega)]

/-- C72: `dumpElement` gives, in the order of the document, one line for every element at or below the one
designated, indented by its depth, with its kind, its name and, for a parameter, the value that
`getParameter` answers for its path; it fails only if one of these values cannot be read. -/
theorem C72_dump {e : MEnv} (wf : e.env.root.WF) (g : e.env.root.GoodNames) (hn : e.env.root.name ≠ []) (m : Mgr)
    {path : Str} {p : Pos} (hl : e.env.root.locate path = some p) :
    ∃ ps, DocumentOrder ps ∧ (∀ q, q ∈ ps ↔ p <+: q ∧ ∃ f, e.env.root.at? q = some f) ∧
      ∀ t, e.env.root.dumpText m.ctx m.st.mem.main path = .ok t ↔
        ∃ v : Pos → Str,
          (∀ q ∈ ps, ∀ f, e.env.root.at? q = some f →
            (f.kind.isParameter = true → m.getParameter e (pathOf e.env.root q) = .ok (v q)) ∧
            (f.kind.isParameter = false → v q = [])) ∧
          t = Lines (ps.map fun q => DumpLine (q.length - p.length) (kindOf e.env.root q) (nameOf e.env.root q) (v q)) := by
  obtain ⟨f, hf⟩ := Elem.locate_at hl
  refine ⟨f.inTree p, f.inTree_ordered p, fun q => Elem.inTree_iff hf q, fun t => ?_⟩
  unfold Elem.dumpText
  rw [hl]
  simp only [hf]
  rw [Elem.dump_iff e.env.root m.ctx m.st.mem.main f p.length 0 p t hf (by simp)]
  -- the value of a position
  have hval : ∀ q ∈ f.inTree p, ∀ x, e.env.root.at? q = some x → ∀ v, e.env.root.valueAt m.ctx m.st.mem.main q = .ok v ↔
      (x.kind.isParameter = true → m.getParameter e (pathOf e.env.root q) = .ok v) ∧
      (x.kind.isParameter = false → v = []) := by
    intro q _ x hx v
    have h0 : e.env.root.valueAt m.ctx m.st.mem.main q = e.env.root.logValue m.ctx m.st.mem.main q x.kind := by
      unfold Elem.valueAt; rw [hx]
    rw [h0]
    unfold Elem.logValue
    cases hk : x.kind.isParameter with
    | false =>
      simp only [Bool.false_eq_true, if_false, Out.ok.injEq, false_imp_iff, true_and, true_imp_iff]
      exact eq_comm
    | true =>
      obtain ⟨o, ho⟩ := Elem.offset_of_at (off := 0) hx
      have ht := wf.access_of_locate (C72_paths_lead_back g hn hx) hx hk
      simp only [if_true, ho, Mgr.getParameter, Elem.getText, ht, hx, true_imp_iff, Bool.true_eq_false, false_imp_iff,
        and_true]
  have hline : ∀ (w : Pos → Str) q, q ∈ f.inTree p → e.env.root.valueAt m.ctx m.st.mem.main q = .ok (w q) →
      e.env.root.dumpLineAt m.ctx m.st.mem.main p.length q =
        DumpLine (q.length - p.length) (kindOf e.env.root q) (nameOf e.env.root q) (w q) := by
    intro w q hq hv
    obtain ⟨_, x, hx⟩ := (Elem.inTree_iff hf q).1 hq
    unfold Elem.dumpLineAt kindOf nameOf
    rw [hx, hv]
    rfl
  constructor
  · rintro ⟨h1, rfl⟩
    refine ⟨fun q => match e.env.root.valueAt m.ctx m.st.mem.main q with | .ok v => v | _ => [], ?_, ?_⟩
    · intro q hq x hx
      obtain ⟨v, hv⟩ := h1 q hq
      simp only [hv]
      exact (hval q hq x hx v).1 hv
    · congr 1
      refine List.map_congr_left fun q hq => ?_
      obtain ⟨v, hv⟩ := h1 q hq
      rw [hline (fun q => match e.env.root.valueAt m.ctx m.st.mem.main q with | .ok v => v | _ => []) q hq
        (by simp only [hv])]
  · rintro ⟨v, h1, rfl⟩
    have hv : ∀ q ∈ f.inTree p, e.env.root.valueAt m.ctx m.st.mem.main q = .ok (v q) := by
      intro q hq
      obtain ⟨_, x, hx⟩ := (Elem.inTree_iff hf q).1 hq
      exact (hval q hq x hx (v q)).2 (h1 q hq x hx)
    refine ⟨fun q hq => ⟨_, hv q hq⟩, ?_⟩
    congr 1
    exact (List.map_congr_left fun q hq => hline v q hq (hv q hq)).symm

/-- The sample: what is listed and dumped. -/
example : Sample.root.WF ∧ Sample.root.GoodNames ∧ Sample.root.locate (s "/Sys/sub/comp") = some [0, 0] ∧
    Designates Sample.root (s "//") [] ∧
    Sample.root.listText false (s "/Sys/sub") = .ok (s
      "/Sys/sub [Subsystem]\n/Sys/sub/comp [Component]\n/Sys/sub/on [BooleanParameter]\n") ∧
    Sample.root.listText true (s "/Sys/sub") = .ok (s
      "/Sys/sub/comp/vol [IntegerParameter]\n/Sys/sub/comp/flags/a [BitParameter]\n/Sys/sub/comp/flags/b [BitParameter]\n/Sys/sub/comp/label [StringParameter]\n/Sys/sub/comp/gains [BooleanParameter]\n/Sys/sub/on [BooleanParameter]\n") ∧
    Sample.root.listText true (s "/Sys/sub/gone") = .err ∧
    Sample.root.sizeText (s "/Sys/sub/comp/vol") = .ok (s "2 byte(s)") ∧
    Sample.root.dumpText Sample.mgr.ctx Sample.mgr.st.mem.main (s "/Sys/sub/comp") = .ok (s
      "- Component: comp\n    - IntegerParameter: vol = 0\n    - BitParameterBlock: flags\n        - BitParameter: a = 0\n        - BitParameter: b = 0\n    - StringParameter: label\n    - BooleanParameter: gains = 0 0\n") :=
  ⟨Sample.wf, Sample.goodNames, by decide, .inr ⟨by decide, by decide, rfl⟩, by decide +kernel, by decide +kernel,
    by decide +kernel, by decide +kernel, by decide +kernel⟩

/-- C72: an element that is not a parameter is listed with the parameters when it has no children. -/
theorem C72_empty_component_listed :
    let root : Elem := .mk (s "R") (.group (s "SystemClass")) none [.mk (s "x") (.group (s "Subsystem")) none []]
    root.WF ∧ root.listText true (s "/") = .ok (s "/R/x [Subsystem]\n") := by
  refine ⟨.group ?_ ?_, by decide +kernel⟩
  · intro c hc
    simp only [List.mem_cons, List.not_mem_nil, or_false] at hc
    subst hc
    exact .group (by simp) (by simp)
  · intro c hc t
    simp only [List.mem_cons, List.not_mem_nil, or_false] at hc
    subst hc
    simp [Elem.kind]

/-! ## C73: the domains of the elements -/

/-- C73: `listBelongingDomains` gives the domains that contain the element, each one once, those that are
associated the closest to it first. -/
theorem C73_belonging {env : Env} (wf : env.root.WF) {cs : List Criterion} {st : St} (h : Reachable env cs st)
    {path : Str} {p : Pos} (hl : env.root.locate path = some p) :
    ∃ ds, AreDomains st (BelongsTo p) ds ∧
      ds.Pairwise (fun d d' => ∀ q ∈ d.elems, ∀ q' ∈ d'.elems, q <+: p → q' <+: p → q'.length ≤ q.length) ∧
      st.belongingDomainsText env.root path = .ok (Lines (ds.map (·.name))) := by
  have hi := h.inv wf
  have ho := hi.belonging_ordered (h.nodup wf) p
  obtain ⟨ds, h1, h2, h3⟩ := St.domains_of_ids hi.ids (ids := st.attached.belonging p) (by
    intro i hm
    obtain ⟨q, _, ha⟩ := mem_belonging.1 hm
    obtain ⟨d, hd, he, _⟩ := (hi.att q i).1 ha
    exact ⟨d, hd, he⟩)
  refine ⟨ds, ⟨by rw [h1]; exact ho.imp (fun h => h.1), fun d => ?_⟩, ?_, ?_⟩
  · rw [h2]
    refine and_congr_right fun hd => ?_
    rw [mem_belonging]
    constructor
    · rintro ⟨q, hq, ha⟩
      obtain ⟨d', hd', he, hm⟩ := (hi.att q d.id).1 ha
      rw [nodup_map_inj hi.ids hd' hd he] at hm
      exact ⟨q, hm, hq⟩
    · rintro ⟨q, hm, hq⟩
      exact ⟨q, hq, (hi.att q d.id).2 ⟨d, hd, rfl, hm⟩⟩
  · rw [← h1, List.pairwise_map] at ho
    refine ho.imp_of_mem fun {d d'} hd hd' hdd q hq q' hq' hp hp' => ?_
    exact hdd.2 q q' hp hp' ((hi.att q _).2 ⟨d, ((h2 d).1 hd).1, rfl, hq⟩)
      ((hi.att q' _).2 ⟨d', ((h2 d').1 hd').1, rfl, hq'⟩)
  · unfold St.belongingDomainsText St.domainNames
    rw [hl]
    simp only [h3, Out.orAbort, Out.bind, linesText_eq]

/-- The domains associated with an element, and their names. -/
theorem associated_of_inv {root : Elem} {st : St} (hi : st.Inv root) (nd : st.attached.Nodup) (p : Pos) :
    ∃ ds, AreDomains st (fun d => p ∈ d.elems) ds ∧
      mapAll st.domainName (st.attached.domainsAt p) = some (ds.map (·.name)) := by
  obtain ⟨ds, h1, h2, h3⟩ := St.domains_of_ids hi.ids (ids := st.attached.domainsAt p) (by
    intro i hm
    obtain ⟨d, hd, he, _⟩ := (hi.att p i).1 (mem_domainsAt.1 hm)
    exact ⟨d, hd, he⟩)
  refine ⟨ds, ⟨by rw [h1]; exact nodup_domainsAt nd p, fun d => ?_⟩, h3⟩
  rw [h2]
  refine and_congr_right fun hd => ?_
  rw [mem_domainsAt, hi.att]
  constructor
  · rintro ⟨d', hd', he, hm⟩
    rwa [nodup_map_inj hi.ids hd' hd he] at hm
  · intro hm
    exact ⟨d, hd, rfl, hm⟩

/-- C73: `listAssociatedDomains` gives the domains the element is associated with, each one once. -/
theorem C73_associated {env : Env} (wf : env.root.WF) {cs : List Criterion} {st : St} (h : Reachable env cs st)
    {path : Str} {p : Pos} (hl : env.root.locate path = some p) :
    ∃ ds, AreDomains st (fun d => p ∈ d.elems) ds ∧
      st.associatedDomainsText env.root path = .ok (Lines (ds.map (·.name))) := by
  obtain ⟨ds, h1, h2⟩ := associated_of_inv (h.inv wf) (h.nodup wf) p
  refine ⟨ds, h1, ?_⟩
  unfold St.associatedDomainsText St.domainNames
  rw [hl]
  simp only [h2, Out.orAbort, Out.bind, linesText_eq]

/-- C73: a path that designates nothing is an error. -/
theorem C73_nothing_designated (st : St) {root : Elem} {path : Str} (h : root.locate path = none) :
    st.belongingDomainsText root path = .err ∧ st.associatedDomainsText root path = .err := by
  simp [St.belongingDomainsText, St.associatedDomainsText, h]

/-- C73: `listAssociatedElements` gives every element associated with a domain, once, with exactly the
domains it is associated with. -/
theorem C73_associated_elements {env : Env} (wf : env.root.WF) {cs : List Criterion} {st : St} (h : Reachable env cs st)
    (addr : Pos → Nat) :
    ∃ (ps : List Pos) (ds : Pos → List Domain), ps.Nodup ∧ (∀ p, p ∈ ps ↔ ∃ d ∈ st.domains, p ∈ d.elems) ∧
      (∀ p, AreDomains st (fun d => p ∈ d.elems) (ds p)) ∧
      st.associatedElementsText env.root addr =
        .ok (Lines (ps.map fun p => pathOf env.root p ++ s " [" ++ Commas ((ds p).map (·.name)) ++ s "]")) := by
  have hi := h.inv wf
  obtain ⟨ds, hds⟩ := Classical.axiomOfChoice (associated_of_inv hi (h.nodup wf))
  obtain ⟨g1, g2⟩ := gatherElems_spec addr st.domains
  refine ⟨gatherElems addr st.domains, ds, g1.imp (fun h => h.1), g2, fun p => (hds p).1, ?_⟩
  unfold St.associatedElementsText
  rw [mapAll_some (g := fun p => pathOf env.root p ++ s " [" ++ Commas ((ds p).map (·.name)) ++ s "]")]
  · rw [Option.map_some, linesText_eq]; rfl
  · intro p hp
    obtain ⟨d, hd, hm⟩ := (g2 p).1 hp
    obtain ⟨f, hf⟩ := (hi.good d hd).at_ p hm
    unfold St.elemLine
    rw [Elem.path_some hf, (hds p).2]
    simp only [joinCommas_eq]

/-- The domains that contain an element, and their names. -/
theorem belonging_of_inv {root : Elem} {st : St} (hi : st.Inv root) (nd : st.attached.Nodup) (p : Pos) :
    ∃ ds, AreDomains st (BelongsTo p) ds ∧ ds.length = st.attached.belongingCount p ∧
      mapAll st.domainName (st.attached.belonging p) = some (ds.map (·.name)) := by
  obtain ⟨ds, h1, h2, h3⟩ := St.domains_of_ids hi.ids (ids := st.attached.belonging p) (by
    intro i hm
    obtain ⟨q, _, ha⟩ := mem_belonging.1 hm
    obtain ⟨d, hd, he, _⟩ := (hi.att q i).1 ha
    exact ⟨d, hd, he⟩)
  refine ⟨ds, ⟨by rw [h1]; exact (hi.belonging_ordered nd p).imp (fun h => h.1), fun d => ?_⟩, ?_, h3⟩
  · rw [h2]
    refine and_congr_right fun hd => ?_
    rw [mem_belonging]
    constructor
    · rintro ⟨q, hq, ha⟩
      obtain ⟨d', hd', he, hm⟩ := (hi.att q d.id).1 ha
      rw [nodup_map_inj hi.ids hd' hd he] at hm
      exact ⟨q, hm, hq⟩
    · rintro ⟨q, hm, hq⟩
      exact ⟨q, hq, (hi.att q d.id).2 ⟨d, hd, rfl, hm⟩⟩
  · rw [← List.length_map (f := fun d : Domain => d.id), h1]; rfl

/-- Two domains or more contain an element exactly when the list of them has two items or more. -/
theorem conflicting_iff {st : St} {p : Pos} {ds : List Domain} (h : AreDomains st (BelongsTo p) ds) :
    1 < ds.length ↔ Conflicting st p := by
  obtain ⟨nd, hm⟩ := h
  constructor
  · intro hlen
    match ds, hlen with
    | d :: d' :: ds, _ =>
      obtain ⟨hd, hb⟩ := (hm d).1 (by simp)
      obtain ⟨hd', hb'⟩ := (hm d').1 (by simp)
      refine ⟨d, hd, d', hd', ?_, hb, hb'⟩
      rintro rfl
      simp at nd
  · rintro ⟨d, hd, d', hd', hne, hb, hb'⟩
    have h1 := (hm d).2 ⟨hd, hb⟩
    have h2 := (hm d').2 ⟨hd', hb'⟩
    match ds, h1, h2 with
    | [x], h1, h2 =>
      simp only [List.mem_singleton] at h1 h2
      exact absurd (h1.trans h2.symm) hne
    | _ :: _ :: _, _, _ => simp

/-- C73: `listConflictingElements` gives the associated elements that two domains or more contain, each one
once, with exactly the domains that contain it. -/
theorem C73_conflicting {env : Env} (wf : env.root.WF) {cs : List Criterion} {st : St} (h : Reachable env cs st)
    (addr : Pos → Nat) :
    ∃ (ps : List Pos) (ds : Pos → List Domain), ps.Nodup ∧
      (∀ p, p ∈ ps ↔ (∃ d ∈ st.domains, p ∈ d.elems) ∧ Conflicting st p) ∧
      (∀ p, AreDomains st (BelongsTo p) (ds p)) ∧
      st.conflictingElementsText env.root addr =
        .ok (Lines (ps.map fun p =>
          pathOf env.root p ++ s " contained in multiple domains: " ++ Commas ((ds p).map (·.name)))) := by
  have hi := h.inv wf
  obtain ⟨ds, hds⟩ := Classical.axiomOfChoice (belonging_of_inv hi (h.nodup wf))
  obtain ⟨g1, g2⟩ := gatherElems_spec addr st.domains
  have hmem : ∀ p, p ∈ (gatherElems addr st.domains).filter (fun p => st.attached.belongingCount p > 1) ↔
      (∃ d ∈ st.domains, p ∈ d.elems) ∧ Conflicting st p := by
    intro p
    rw [List.mem_filter, g2, ← conflicting_iff (hds p).1, (hds p).2.1]
    simp
  refine ⟨_, ds, (g1.filter _).imp (fun h => h.1), hmem, fun p => (hds p).1, ?_⟩
  unfold St.conflictingElementsText
  rw [mapAll_some (g := fun p =>
    pathOf env.root p ++ s " contained in multiple domains: " ++ Commas ((ds p).map (·.name)))]
  · rw [Option.map_some, linesText_eq]; rfl
  · intro p hp
    obtain ⟨⟨d, hd, hm⟩, _⟩ := (hmem p).1 hp
    obtain ⟨f, hf⟩ := (hi.good d hd).at_ p hm
    unfold St.elemLine
    rw [Elem.path_some hf, (hds p).2.2]
    simp only [joinCommas_eq, List.append_nil]

/-- C73: whenever two domains or more contain an element, it or an element above it is listed as
conflicting. -/
theorem C73_every_conflict_listed {st : St} {p : Pos} (h : Conflicting st p) :
    ∃ q, q <+: p ∧ (∃ d ∈ st.domains, q ∈ d.elems) ∧ Conflicting st q := by
  obtain ⟨d, hd, d', hd', hne, ⟨q, hq, hqp⟩, ⟨q', hq', hqp'⟩⟩ := h
  rcases List.prefix_or_prefix_of_prefix hqp hqp' with hh | hh
  · exact ⟨q', hqp', ⟨d', hd', hq'⟩, d, hd, d', hd', hne, ⟨q, hq, hh⟩, ⟨q', hq', List.prefix_refl _⟩⟩
  · exact ⟨q, hqp, ⟨d, hd, hq⟩, d, hd, d', hd', hne, ⟨q, hq, List.prefix_refl _⟩, ⟨q', hq', hh⟩⟩

/-- The sample, and the sample with an element that two domains contain. -/
example :
    let st := ((DomOp.addElement (s "V") (s "/Sys/sub")).step Sample.env Sample.st).2
    Reachable Sample.env Sample.criteria Sample.st ∧ Sample.env.root.locate (s "/Sys/sub/comp/vol") = some [0, 0, 0] ∧
    Sample.st.belongingDomainsText Sample.root (s "/Sys/sub/comp/flags/a") = .ok (s "Q\n") ∧
    Sample.st.associatedDomainsText Sample.root (s "/Sys/sub/comp/flags/a") = .ok [] ∧
    Sample.st.associatedElementsText Sample.root (fun p => p.sum) =
      .ok (s "/Sys/sub/comp/vol [V]\n/Sys/sub/comp/flags [Q]\n/Sys/sub/on [Q]\n") ∧
    Sample.st.conflictingElementsText Sample.root (fun p => p.sum) = .ok [] ∧
    st.belongingDomainsText Sample.root (s "/Sys/sub/comp/flags/a") = .ok (s "Q\nV\n") ∧
    st.conflictingElementsText Sample.root (fun p => p.sum) = .ok (s
      "/Sys/sub/comp/flags contained in multiple domains: Q, V\n/Sys/sub/on contained in multiple domains: Q, V\n") :=
  ⟨Sample.reachable, by decide, by decide +kernel, by decide +kernel, by decide +kernel, by decide +kernel,
    by decide +kernel, by decide +kernel⟩

/-! ## C74: the domains, the status and the criteria -/

/-- C74: `listDomains` gives the domains in order, and says which ones are sequence-aware. -/
theorem C74_domains (st : St) :
    st.domainsText = Lines (st.domains.map fun d => if d.seqAware = true then d.name ++ s " [sequence aware]" else d.name) := by
  unfold St.domainsText
  rw [linesText_eq]
  congr 1
  refine List.map_congr_left fun d _ => ?_
  cases d.seqAware <;> simp

/-- C74: `listConfigurations` gives the configurations of the domain in order, and fails if there is no such
domain. -/
theorem C74_configurations (st : St) (dom : Str) :
    (∀ d, st.findDomain dom = some d → st.configurationsText dom = .ok (Lines (d.configs.map (·.name)))) ∧
    (st.findDomain dom = none → st.configurationsText dom = .err) := by
  unfold St.configurationsText
  refine ⟨fun d hd => ?_, fun hd => ?_⟩
  · rw [hd]; simp only [linesText_eq]
  · rw [hd]

/-- C74: `listDomainElements` gives the paths of the elements of the domain, in the order of the domain, and
fails if there is no such domain. -/
theorem C74_domain_elements {env : Env} (wf : env.root.WF) {cs : List Criterion} {st : St} (h : Reachable env cs st)
    (dom : Str) :
    (∀ d, st.findDomain dom = some d → st.domainElementsText env.root dom = .ok (Lines (d.elems.map (pathOf env.root)))) ∧
    (st.findDomain dom = none → st.domainElementsText env.root dom = .err) := by
  unfold St.domainElementsText
  refine ⟨fun d hd => ?_, fun hd => ?_⟩
  · rw [hd]
    have hg := (h.inv wf).good d (St.findDomain_mem hd).1
    simp only
    rw [mapAll_some (g := pathOf env.root), Option.map_some, linesText_eq]
    · rfl
    · intro p hp
      obtain ⟨f, hf⟩ := hg.at_ p hp
      exact Elem.path_some hf
  · rw [hd]

theorem pendingName_shown {cs : List Criterion} {d : Domain} (h : RulesOK cs d.configs) :
    ∃ t, d.pendingName cs = some t ∧ PendingShown cs d t := by
  obtain ⟨o, h1, h2⟩ := findApplicable_spec h
  unfold Domain.pendingName
  rw [h1]
  cases o with
  | none =>
    refine ⟨_, rfl, .inl ⟨?_, rfl⟩⟩
    intro c hc hq
    -- the first one that qualifies
    have : ∀ l : List Config, (∃ c ∈ l, Qualifies cs c) → ∃ c, FirstQualifying cs l c := by
      intro l
      induction l with
      | nil => rintro ⟨c, hc, _⟩; simp at hc
      | cons x l ih =>
        rintro ⟨c, hc, hq⟩
        by_cases hx : Qualifies cs x
        · exact ⟨x, [], l, rfl, hx, by simp⟩
        · rcases List.mem_cons.1 hc with rfl | hc
          · exact absurd hq hx
          · obtain ⟨y, pre, post, rfl, hy, hpre⟩ := ih ⟨c, hc, hq⟩
            exact ⟨y, x :: pre, post, rfl, hy, by
              intro z hz
              rcases List.mem_cons.1 hz with rfl | hz
              · exact hx
              · exact hpre z hz⟩
    obtain ⟨y, hy⟩ := this _ ⟨c, hc, hq⟩
    have := (h2 y).2 hy
    simp at this
  | some c =>
    have hc := (h2 c).1 rfl
    refine ⟨_, rfl, .inr ⟨c, hc, ?_⟩⟩
    by_cases hl : d.last = some c.id
    · exact .inr ⟨fun hs => by simpa [hl] using hs.2, by simp [hl]⟩
    · exact .inl ⟨⟨hc, .inr hl⟩, by simp [hl]⟩

/-- C74: the status gives, for every domain in order, the last applied configuration and, in brackets, the
pending one. -/
theorem C74_last_and_pending {env : Env} (wf : env.root.WF) {cs : List Criterion} {st : St} (h : Reachable env cs st) :
    ∃ last pending : Domain → Str, (∀ d ∈ st.domains, LastShown d (last d) ∧ PendingShown st.criteria d (pending d)) ∧
      st.lastAppliedText = .ok (Lines (st.domains.map fun d => d.name ++ s ": " ++ last d ++ s " [" ++ pending d ++ s "]")) := by
  have hl : ∀ d ∈ st.domains, ∃ t, d.lastName = some t ∧ LastShown d t := by
    intro d hd
    rcases C17_reported_name wf h hd with ⟨h1, h2⟩ | ⟨c, hc, h1, h2⟩
    · exact ⟨_, h2, .inl ⟨h1, rfl⟩⟩
    · exact ⟨_, h2, .inr ⟨c, hc, h1, rfl⟩⟩
  refine ⟨fun d => d.lastName.getD [], fun d => (d.pendingName st.criteria).getD [], ?_, ?_⟩
  · intro d hd
    obtain ⟨t, h1, h2⟩ := hl d hd
    obtain ⟨u, h3, h4⟩ := pendingName_shown ((h.inv wf).rules d hd)
    simp only [h1, h3, Option.getD_some]
    exact ⟨h2, h4⟩
  · unfold St.lastAppliedText
    rw [mapAll_some (g := fun d : Domain => d.name ++ s ": " ++ d.lastName.getD [] ++ s " [" ++
      (d.pendingName st.criteria).getD [] ++ s "]"), Option.map_some, linesText_eq]
    · rfl
    · intro d hd
      obtain ⟨t, h1, _⟩ := hl d hd
      obtain ⟨u, h3, _⟩ := pendingName_shown ((h.inv wf).rules d hd)
      unfold Domain.statusLine
      rw [h1, h3]
      rfl

/-- C74: what is pending is what the next application applies, and nothing is pending after it. -/
theorem C74_pending_applied {env : Env} (wf : env.root.WF) {cs : List Criterion} {st st' : St} (h : Reachable env cs st)
    (force : Bool) {o : Out Unit} (ha : st.apply env.root env.hw force = (o, st')) :
    ∀ (k : Nat) (d : Domain), st.domains[k]? = some d → ∃ d', st'.domains[k]? = some d' ∧
      (∀ c, Switches st.criteria false d c → d'.last = some c.id ∧ LastShown d' c.name) ∧
      (∀ c, ¬ Switches st'.criteria false d' c) ∧
      ∀ t, PendingShown st'.criteria d' t → t = [] ∨ t = s "<none>" := by
  obtain ⟨_, _, hk⟩ := C11_first_applicable_wins wf h force ha
  intro k d hd
  obtain ⟨l, h1, h2, _⟩ := hk k d hd
  have hc : ∀ {x c}, FirstQualifying st'.criteria x c → FirstQualifying st.criteria x c := by
    obtain ⟨b, log, h1, _⟩ := (h.inv wf).apply_eq wf env.hw force
    rw [h1] at ha
    simp only [Prod.mk.injEq] at ha
    obtain ⟨_, rfl⟩ := ha
    exact Spec.FirstQualifying.reset.1
  have hno : ∀ c, ¬ Switches st'.criteria false { d with last := l } c := by
    rintro c ⟨hf, hs⟩
    have := h2 c (hc hf)
    rcases hs with hs | hs
    · simp at hs
    · exact hs this
  refine ⟨_, h1, ?_, hno, ?_⟩
  · rintro c ⟨hf, _⟩
    have hl := h2 c hf
    obtain ⟨pre, post, he, _⟩ := hf
    exact ⟨hl, .inr ⟨c, by rw [he]; simp, hl, rfl⟩⟩
  · rintro t (⟨_, rfl⟩ | ⟨c, _, ⟨hs, _⟩ | ⟨_, rfl⟩⟩)
    · exact .inr rfl
    · exact absurd hs (hno c)
    · exact .inl rfl

/-- C74: the status and the dump of the domains are always answered. -/
theorem C74_always_answered {e : MEnv} (wf : e.env.root.WF) {cs : List Criterion} {m : Mgr} (h : MReachable e cs m) :
    (∃ t, m.statusText e = .ok t) ∧ ∃ t, m.st.dumpDomainsText e.env.root = .ok t := by
  obtain ⟨l, p, _, h1⟩ := C74_last_and_pending wf h.reachable
  constructor
  · unfold Mgr.statusText Elem.childrenPaths
    rw [mapAll_some (g := fun i => pathOf e.env.root [i]), h1]
    · exact ⟨_, rfl⟩
    · intro i hi
      rw [List.mem_range] at hi
      exact Elem.path_some (f := e.env.root.children[i]) (by rw [Elem.at?_single, List.getElem?_eq_getElem hi])
  · have : ∀ d ∈ m.st.domains, Domain.dumpTree m.st.criteria 1 d = some ((Domain.dumpTree m.st.criteria 1 d).getD []) := by
      intro d hd
      have : ∃ t, d.lastName = some t := by
        rcases C17_reported_name wf h.reachable hd with ⟨_, h2⟩ | ⟨c, _, _, h2⟩ <;> exact ⟨_, h2⟩
      obtain ⟨t, ht⟩ := this
      unfold Domain.dumpTree
      rw [ht]
      rfl
    unfold St.dumpDomainsText
    rw [mapAll_some this]
    exact ⟨_, rfl⟩

/-- The sample: before and after an application. -/
example :
    let st' := (Sample.st.apply Sample.root Sample.env.hw false).2
    Sample.st.domainsText = s "V\nQ [sequence aware]\n" ∧
    Sample.st.configurationsText (s "V") = .ok (s "Loud\nCalm\n") ∧ Sample.st.configurationsText (s "X") = .err ∧
    Sample.st.domainElementsText Sample.root (s "Q") = .ok (s "/Sys/sub/comp/flags\n/Sys/sub/on\n") ∧
    Sample.st.lastAppliedText = .ok (s "V: <none> [Calm]\nQ: <none> [On]\n") ∧
    st'.lastAppliedText = .ok (s "V: Calm []\nQ: On []\n") := by
  decide +kernel

/-- C74: what the status gives. -/
theorem C74_status {e : MEnv} (wf : e.env.root.WF) {cs : List Criterion} {m : Mgr} (h : MReachable e cs m) :
    ∃ last pending : Domain → Str,
      (∀ d ∈ m.st.domains, LastShown d (last d) ∧ PendingShown m.st.criteria d (pending d)) ∧
      m.statusText e = .ok (
        Lines ([[], s "General:", s "========", s "System Class: " ++ e.env.root.name,
          s "Tuning Mode: " ++ (if m.tuning = true then s "on" else s "off"),
          s "Value Space: " ++ (if m.raw = true then s "raw" else s "real"),
          s "Output Raw Format: " ++ (if m.hex = true then s "hex" else s "dec"),
          s "Auto Sync: " ++ (if m.autoSync = true then s "on" else s "off"),
          [], s "Subsystems:", s "==========="] ++
          (List.range e.env.root.children.length).map (fun i => pathOf e.env.root [i]) ++
          [[], s "Last Applied [Pending] Configurations:", s "======================================"] ++
          m.st.domains.map (fun d => d.name ++ s ": " ++ last d ++ s " [" ++ pending d ++ s "]") ++
          [[], s "Selection Criteria:", s "==================="]) ++
        joinTexts (s "\n") (m.st.criteria.map fun c => c.name ++ s " = " ++ c.type.formattedState c.state)) := by
  obtain ⟨l, p, hlp, h1⟩ := C74_last_and_pending wf h.reachable
  refine ⟨l, p, hlp, ?_⟩
  have e1 : titleText (s "General:") = Lines [[], s "General:", s "========"] := by decide
  have e2 : titleText (s "Subsystems:") = Lines [[], s "Subsystems:", s "==========="] := by decide
  have e3 : titleText (s "Last Applied [Pending] Configurations:") =
    Lines [[], s "Last Applied [Pending] Configurations:", s "======================================"] := by decide
  have e4 : titleText (s "Selection Criteria:") = Lines [[], s "Selection Criteria:", s "==================="] := by decide
  have e5 : criteriaText false true m.st.criteria =
      joinTexts (s "\n") (m.st.criteria.map fun c => c.name ++ s " = " ++ c.type.formattedState c.state) := rfl
  unfold Mgr.statusText Elem.childrenPaths
  rw [mapAll_some (g := fun i => pathOf e.env.root [i]), h1, e1, e2, e3, e4, e5]
  · simp only [Option.map_some, Out.orAbort, Out.bind, linesText_eq, Out.ok.injEq, Lines_append]
    simp only [Lines, List.append_assoc, List.append_nil, List.nil_append]
  · intro i hi
    rw [List.mem_range] at hi
    exact Elem.path_some (f := e.env.root.children[i]) (by rw [Elem.at?_single, List.getElem?_eq_getElem hi])

/-- The sample: the status, the dump of the domains and the criteria. -/
example : MReachable Sample.menv Sample.criteria Sample.mgr ∧
    Sample.mgr.statusText Sample.menv = .ok (s
      "\nGeneral:\n========\nSystem Class: Sys\nTuning Mode: on\nValue Space: real\nOutput Raw Format: dec\nAuto Sync: on\n\nSubsystems:\n===========\n/Sys/sub\n\nLast Applied [Pending] Configurations:\n======================================\nV: <none> [Calm]\nQ: <none> [On]\n\nSelection Criteria:\n===================\nDevice = A|B\nMode = InCall") :=
  ⟨Sample.mreachable, by decide +kernel⟩

example : Sample.mgr.st.dumpDomainsText Sample.root = .ok (s
      "- ConfigurableDomains: Sys\n    - ConfigurableDomain: V = {Sequence aware: no, Last applied configuration: <none>}\n        - Configuration: Loud\n            - CompoundRule = All\n                - SelectionCriterionRule = Mode Is Idle\n        - Configuration: Calm\n            - CompoundRule = Any\n                - SelectionCriterionRule = Device Includes B\n    - ConfigurableDomain: Q = {Sequence aware: yes, Last applied configuration: <none>}\n        - Configuration: On\n            - CompoundRule = All\n        - Configuration: Off\n") := by decide +kernel

example : criteriaText true true Sample.criteria = s
      "\nDevice:\n=======\nPossible states (Inclusive): {A, B}\nCurrent state = A|B\n\nMode:\n=====\nPossible states (Exclusive): {Idle, InCall}\nCurrent state = InCall" ∧
    criteriaText true false Sample.criteria = s
      "Criterion name: Device, type kind: inclusive, current state: A|B, states: {A, B}\nCriterion name: Mode, type kind: exclusive, current state: InCall, states: {Idle, InCall}" ∧
    criteriaText false false Sample.criteria = s
      "Criterion name: Device, current state: A|B\nCriterion name: Mode, current state: InCall" :=
  by decide +kernel

end PF
