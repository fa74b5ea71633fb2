import Verif.Lemmas.DomainConf
import Verif.Props.Rule

/-! # What an application of the configurations does -/

namespace PF
open Spec

/-! ## Rules -/

theorem Spec.WellTyped.refs {cs : List Criterion} {r : Rule} (h : WellTyped cs r) : Refs cs r := by
  induction h with
  | crit i verb v c hc _ _ => exact .crit _ _ _ (List.getElem?_eq_some_iff.mp hc).1
  | compound a rs _ ih => exact .compound _ _ ih

/-- Two lists of criteria that differ at most in their states and modification counters. -/
def SameTypes (cs cs' : List Criterion) : Prop :=
  ∀ (i : Nat) (c : Criterion), cs[i]? = some c → ∃ c' : Criterion, cs'[i]? = some c' ∧ c'.type = c.type

theorem Spec.WellTyped.congr {cs cs' : List Criterion} (hs : SameTypes cs cs') {r : Rule} (h : WellTyped cs r) :
    WellTyped cs' r := by
  induction h with
  | crit i verb v c hc hv hk =>
    obtain ⟨c', h1, h2⟩ := hs i c hc
    exact .crit i verb v c' h1 (by rw [h2]; exact hv) (by rw [h2]; exact hk)
  | compound a rs _ ih => exact .compound a rs ih

theorem Spec.Sat.congr {cs cs' : List Criterion} (hs : ∀ (i : Nat) (c : Criterion), cs[i]? = some c → ∃ c' : Criterion, cs'[i]? = some c' ∧ c'.state = c.state)
    {r : Rule} (h : Sat cs r) : Sat cs' r := by
  induction h with
  | crit i verb v c hc hh =>
    obtain ⟨c', h1, h2⟩ := hs i c hc
    exact .crit i verb v c' h1 (by rw [h2]; exact hh)
  | all rs _ ih => exact .all rs ih
  | any rs r hr _ ih => exact .any rs r hr ih

theorem Spec.Sat.reset {cs : List Criterion} {r : Rule} : Sat (cs.map Criterion.resetModified) r ↔ Sat cs r := by
  constructor
  · apply Sat.congr
    intro i c hc
    rw [List.getElem?_map] at hc
    obtain ⟨c0, h0, rfl⟩ := Option.map_eq_some_iff.1 hc
    exact ⟨c0, h0, rfl⟩
  · apply Sat.congr
    intro i c hc
    exact ⟨c.resetModified, by simp [hc], rfl⟩

theorem Spec.FirstQualifying.reset {cs : List Criterion} {l : List Config} {c : Config} :
    FirstQualifying (cs.map Criterion.resetModified) l c ↔ FirstQualifying cs l c := by
  simp only [FirstQualifying, Qualifies, Sat.reset]

theorem Spec.FirstQualifying.unique {cs : List Criterion} {l : List Config} {c c' : Config}
    (h : FirstQualifying cs l c) (h' : FirstQualifying cs l c') : c = c' := by
  induction l with
  | nil => obtain ⟨pre, post, he, _⟩ := h; simp at he
  | cons x xs ih =>
    obtain ⟨pre, post, he, hq, hn⟩ := h
    obtain ⟨pre', post', he', hq', hn'⟩ := h'
    cases pre with
    | nil =>
      simp only [List.nil_append, List.cons.injEq] at he
      cases pre' with
      | nil =>
        simp only [List.nil_append, List.cons.injEq] at he'
        exact he.1.symm.trans he'.1
      | cons y ys =>
        simp only [List.cons_append, List.cons.injEq] at he'
        exact absurd (by rw [← he'.1, he.1]; exact hq) (hn' y (by simp))
    | cons y ys =>
      simp only [List.cons_append, List.cons.injEq] at he
      cases pre' with
      | nil =>
        simp only [List.nil_append, List.cons.injEq] at he'
        exact absurd (by rw [← he.1, he'.1]; exact hq') (hn y (by simp))
      | cons z zs =>
        simp only [List.cons_append, List.cons.injEq] at he'
        exact ih ⟨ys, post, he.2, hq, fun w hw => hn w (by simp [hw])⟩
          ⟨zs, post', he'.2, hq', fun w hw => hn' w (by simp [hw])⟩

/-- A rule of a configuration: a well typed compound rule. -/
def RuleOK (cs : List Criterion) (r : Rule) : Prop := WellTyped cs r ∧ ∃ all rs, r = .compound all rs

theorem RuleOK.refs {cs : List Criterion} {r : Rule} (h : RuleOK cs r) : Refs cs r := h.1.refs
theorem RuleOK.congr {cs cs' : List Criterion} {r : Rule} (h : RuleOK cs r) (hs : SameTypes cs cs') : RuleOK cs' r :=
  ⟨h.1.congr hs, h.2⟩

/-- All the rules of the configurations are well typed compound rules. -/
def RulesOK (cs : List Criterion) (l : List Config) : Prop := ∀ c ∈ l, ∀ r, c.rule = some r → RuleOK cs r

theorem isApplicable_spec {cs : List Criterion} {c : Config} (h : ∀ r, c.rule = some r → RuleOK cs r) :
    ∃ b, c.isApplicable cs = some b ∧ (b = true ↔ Qualifies cs c) := by
  unfold Config.isApplicable
  split
  · rename_i hr
    exact ⟨false, rfl, by simp [Qualifies, hr]⟩
  · rename_i r hr
    obtain ⟨b, h1, h2⟩ := matches_sat cs r (h r hr).refs
    exact ⟨b, h1, by rw [h2]; simp [Qualifies, hr]⟩

theorem findApplicable_spec {cs : List Criterion} {l : List Config} (h : RulesOK cs l) :
    ∃ o, findApplicable cs l = some o ∧ ∀ c, o = some c ↔ FirstQualifying cs l c := by
  induction l with
  | nil =>
    refine ⟨none, rfl, fun c => ?_⟩
    simp only [reduceCtorEq, false_iff]
    rintro ⟨pre, post, he, _⟩
    simp at he
  | cons x xs ih =>
    obtain ⟨b, hb, hq⟩ := isApplicable_spec (h x (by simp))
    cases b with
    | true =>
      refine ⟨some x, by simp [findApplicable, hb], fun c => ?_⟩
      have hx : FirstQualifying cs (x :: xs) x := ⟨[], xs, rfl, hq.1 rfl, by simp⟩
      constructor
      · intro he; simp only [Option.some.injEq] at he; subst he; exact hx
      · intro hc; rw [hx.unique hc]
    | false =>
      obtain ⟨o, ho, hoc⟩ := ih (fun c hc => h c (by simp [hc]))
      refine ⟨o, by simp [findApplicable, hb, ho], fun c => ?_⟩
      rw [hoc]
      have hnx : ¬ Qualifies cs x := fun hc => by simpa using hq.2 hc
      constructor
      · rintro ⟨pre, post, rfl, h1, h2⟩
        refine ⟨x :: pre, post, rfl, h1, ?_⟩
        intro y hy
        rcases List.mem_cons.1 hy with rfl | hy
        · exact hnx
        · exact h2 y hy
      · rintro ⟨pre, post, he, h1, h2⟩
        cases pre with
        | nil =>
          simp only [List.nil_append, List.cons.injEq] at he
          exact absurd (by rw [he.1]; exact h1) hnx
        | cons y ys =>
          simp only [List.cons_append, List.cons.injEq] at he
          exact ⟨ys, post, he.2, h1, fun z hz => h2 z (by simp [hz])⟩

/-! ## Traces -/

theorem Spec.WrittenAll.append {root : Elem} {as bs : List Area} {b b1 b2 : Board} (h1 : WrittenAll root as b b1)
    (h2 : WrittenAll root bs b1 b2) : WrittenAll root (as ++ bs) b b2 := by
  induction h1 with
  | nil => exact h2
  | cons a as b b' b1 h _ ih => exact .cons a _ b b' b2 h (ih h2)

theorem Spec.ElementByElement.append {root : Elem} {as bs : List Area} {b b1 b2 : Board} {ev ev' : List SyncEvent}
    (h1 : ElementByElement root as b ev b1) (h2 : ElementByElement root bs b1 ev' b2) :
    ElementByElement root (as ++ bs) b (ev ++ ev') b2 := by
  induction h1 with
  | nil => exact h2
  | cons a as b b' b1 ev h _ ih => rw [List.append_assoc]; exact .cons a _ b b' b2 _ h (ih h2)

theorem Spec.ElementByElement.written {root : Elem} {as : List Area} {b b' : Board} {ev : List SyncEvent}
    (h : ElementByElement root as b ev b') : WrittenAll root as b b' := by
  induction h with
  | nil => exact .nil _
  | cons a as b b1 b2 ev h _ ih => exact .cons a as b b1 b2 h ih

theorem Spec.WrittenAll.length {root : Elem} {as : List Area} {b b' : Board} (h : WrittenAll root as b b') :
    b'.length = b.length := by
  induction h with
  | nil => rfl
  | cons a as b b1 b2 h _ ih => rw [ih, h.1]

/-- A bit that belongs to no element written keeps its value. -/
theorem Spec.WrittenAll.frame {root : Elem} {as : List Area} {b b' : Board} (h : WrittenAll root as b b') {i : Nat}
    (hi : ∀ a ∈ as, ¬ root.Owns a.elem i) : b'.bit i = b.bit i := by
  induction h with
  | nil => rfl
  | cons a as b b1 b2 h _ ih =>
    rw [ih (fun x hx => hi x (by simp [hx])), h.2.2 i (hi a (by simp))]

/-- A bit on whose value all the areas that hold it agree gets that value. -/
theorem Spec.WrittenAll.value {root : Elem} {as : List Area} {b b' : Board} (h : WrittenAll root as b b') {i : Nat} {v : Bool}
    (hv : ∀ a ∈ as, root.Owns a.elem i → a.value root i = v) (hex : ∃ a ∈ as, root.Owns a.elem i) : b'.bit i = v := by
  induction h with
  | nil => obtain ⟨a, ha, _⟩ := hex; simp at ha
  | cons a as b b1 b2 h hr ih =>
    by_cases hx : ∃ x ∈ as, root.Owns x.elem i
    · exact ih (fun x hx => hv x (by simp [hx])) hx
    · rw [hr.frame (fun x hm ho => hx ⟨x, hm, ho⟩)]
      obtain ⟨x, hm, ho⟩ := hex
      rcases List.mem_cons.1 hm with rfl | hm
      · rw [h.2.1 i ho]; exact hv x (by simp) ho
      · exact absurd ⟨x, hm, ho⟩ hx

theorem restoreAreas_trace {root : Elem} (wf : root.WF) (hw : Hardware) {syncOf : Pos → Option SyncerSet}
    {bSync : Bool} {as : List Area} {m : Mem} (hs : ∀ a ∈ as, a.Sized root) (hv : ∀ a ∈ as, a.valid = true)
    (hsy : bSync = true → ∀ a ∈ as, syncOf a.elem = some (root.syncerSet a.elem))
    (hm : m.main.length = root.footprint) :
    ∃ m' errs ev, restoreAreas root hw syncOf bSync as m = some (m', errs) ∧
      ElementByElement root as m.main ev m'.main ∧ m'.log = m.log ++ (if bSync then ev else []) := by
  induction as generalizing m with
  | nil => exact ⟨m, [], [], rfl, .nil _, by simp⟩
  | cons a as ih =>
    obtain ⟨b, h1, h2, h3, h4⟩ := Area.restore_spec wf (hs a (by simp)) (hv a (by simp)) hm
    cases bSync with
    | false =>
      obtain ⟨m', errs, ev, k1, k2, k3⟩ := ih (m := ⟨b, m.log⟩) (fun x hx => hs x (by simp [hx]))
        (fun x hx => hv x (by simp [hx])) (by simp) (by simp [h2, hm])
      refine ⟨m', errs, _, ?_, .cons a as _ b _ ev ⟨h2, h3, h4⟩ k2, by simpa using k3⟩
      simp only [restoreAreas, h1]
      simpa using k1
    | true =>
      obtain ⟨m', errs, ev, k1, k2, k3⟩ := ih (m := ⟨b, (syncAll hw b (root.syncerSet a.elem) m.log).1⟩)
        (fun x hx => hs x (by simp [hx]))
        (fun x hx => hv x (by simp [hx])) (fun _ x hx => hsy rfl x (by simp [hx])) (by simp [h2, hm])
      refine ⟨m', (syncAll hw b (root.syncerSet a.elem) m.log).2 ++ errs, _, ?_, .cons a as _ b _ ev ⟨h2, h3, h4⟩ k2, ?_⟩
      · simp only [restoreAreas, h1, hsy rfl a (by simp), k1, if_true]
      · rw [k3, syncAll_log]; simp

/-! ## One domain -/

/-- The configuration a domain switches to. -/
def Domain.switchTo (cs : List Criterion) (force : Bool) (d : Domain) : Option Config :=
  match (findApplicable cs d.configs).getD none with
  | none => none
  | some c => if force = true ∨ d.last ≠ some c.id then some c else none

/-- The domain after an application that concerns it. -/
def Domain.target (cs : List Criterion) (force : Bool) (d : Domain) : Domain :=
  { d with last := match (findApplicable cs d.configs).getD none with
      | none => if force then none else d.last
      | some c => some c.id }

theorem Domain.switchTo_spec {cs : List Criterion} {force : Bool} {d : Domain} (hr : RulesOK cs d.configs) (c : Config) :
    d.switchTo cs force = some c ↔ Switches cs force d c := by
  obtain ⟨o, ho, hoc⟩ := findApplicable_spec hr
  unfold Domain.switchTo Switches
  rw [ho, ← hoc]
  cases o with
  | none => simp
  | some x =>
    simp only [Option.getD_some, Option.some.injEq]
    by_cases h : force = true ∨ d.last ≠ some x.id
    · rw [if_pos h]
      constructor
      · rintro ⟨rfl⟩; exact ⟨rfl, h⟩
      · rintro ⟨rfl, _⟩; rfl
    · rw [if_neg h]
      constructor
      · simp
      · rintro ⟨rfl, h'⟩; exact absurd h' h

theorem Domain.target_spec {cs : List Criterion} {force : Bool} {d : Domain} (hr : RulesOK cs d.configs) :
    (∀ c, FirstQualifying cs d.configs c → (d.target cs force).last = some c.id) ∧
    ((∀ c, ¬ FirstQualifying cs d.configs c) → (d.target cs force).last = if force then none else d.last) := by
  obtain ⟨o, ho, hoc⟩ := findApplicable_spec hr
  unfold Domain.target
  simp only [ho, Option.getD_some]
  refine ⟨fun c hc => ?_, fun hn => ?_⟩
  · rw [(hoc c).2 hc]
  · cases o with
    | none => rfl
    | some x => exact absurd ((hoc x).1 rfl) (hn x)

theorem Domain.target_good {root : Elem} {cs : List Criterion} {force : Bool} {d : Domain} (h : d.Good root) :
    (d.target cs force).Good root := by
  refine h.withLast ?_
  intro i hi
  cases hf : findApplicable cs d.configs with
  | none =>
    rw [hf] at hi
    cases force with
    | true => simp at hi
    | false => simp at hi; exact h.last i hi
  | some o =>
    rw [hf] at hi
    cases o with
    | none =>
      cases force with
      | true => simp at hi
      | false => simp at hi; exact h.last i hi
    | some c =>
      simp at hi
      exact List.mem_map.2 ⟨c, findApplicable_mem hf, hi⟩

/-- `apply` on the domains the pass does not concern. -/
theorem Domain.apply_skip (root : Elem) (hw : Hardware) (cs : List Criterion) (force : Bool) (d : Domain) (m : Mem)
    (ss : Option SyncerSet) (h : ss.isNone ≠ d.seqAware) : d.apply root hw cs force m ss = some (d, m, ss) := by
  simp [Domain.apply, h]

/-- `apply` on the domains the pass concerns. -/
theorem Domain.apply_spec {root : Elem} (wf : root.WF) (hw : Hardware) {cs : List Criterion} (force : Bool) {d : Domain}
    (h : d.Good root) (hr : RulesOK cs d.configs) {m : Mem} (hm : m.main.length = root.footprint)
    (ss : Option SyncerSet) (hss : ss.isNone = d.seqAware) :
    (d.switchTo cs force = none → d.apply root hw cs force m ss = some (d.target cs force, m, ss)) ∧
    ∀ c, d.switchTo cs force = some c →
      ∃ m' ev, d.apply root hw cs force m ss = some (d.target cs force, m', ss.map (·.union d.syncSet)) ∧
        ElementByElement root c.areas m.main ev m'.main ∧ m'.log = m.log ++ (if d.seqAware then ev else []) := by
  obtain ⟨o, ho, hoc⟩ := findApplicable_spec hr
  have hsy : ∀ l, Domain.syncOf { d with last := l } = d.syncOf := fun _ => rfl
  have key : d.apply root hw cs force m ss =
      match o with
      | none => some (d.target cs force, m, ss)
      | some c =>
        if force = true ∨ d.last ≠ some c.id then
          match restoreAreas root hw d.syncOf (ss.isNone && d.seqAware) c.areas m with
          | none => none
          | some (m', _) => some (d.target cs force, m', ss.map fun x => if !d.seqAware then x.union d.syncSet else x)
        else some (d.target cs force, m, ss) := by
    cases o with
    | none =>
      cases force <;> simp [Domain.apply, hss, ho, Domain.target]
    | some c =>
      cases force with
      | true =>
        simp [Domain.apply, hss, ho, Domain.target, hsy]
        cases restoreAreas root hw d.syncOf d.seqAware c.areas m <;> rfl
      | false =>
        by_cases hl : d.last = some c.id
        · simp [Domain.apply, hss, ho, Domain.target, hl]
          cases d; simp at hl ⊢; exact hl
        · simp [Domain.apply, hss, ho, Domain.target, hl]
          cases restoreAreas root hw d.syncOf d.seqAware c.areas m <;> rfl
  constructor
  · intro hn
    rw [key]
    cases o with
    | none => rfl
    | some c =>
      simp only [Domain.switchTo, ho, Option.getD_some] at hn
      have : ¬ (force = true ∨ d.last ≠ some c.id) := by
        intro hh; rw [if_pos hh] at hn; simp at hn
      simp only [if_neg this]
  · intro c hc
    rw [key]
    cases o with
    | none => simp [Domain.switchTo, ho] at hc
    | some x =>
      simp only [Domain.switchTo, ho, Option.getD_some] at hc
      by_cases hh : force = true ∨ d.last ≠ some x.id
      · rw [if_pos hh, Option.some.injEq] at hc
        subst hc
        have hmem := findApplicable_mem ho
        have hok := h.ok x hmem
        obtain ⟨m', errs, ev, k1, k2, k3⟩ := restoreAreas_trace wf hw (syncOf := d.syncOf) (bSync := ss.isNone && d.seqAware)
          hok.sized (h.valid x hmem)
          (fun _ a ha => by rw [h.keys, if_pos ((hok.mem _).1 (List.mem_map.2 ⟨a, ha, rfl⟩))]) hm
        refine ⟨m', ev, ?_, k2, ?_⟩
        · simp only [if_pos hh, k1]
          cases hsa : d.seqAware with
          | false => simp
          | true =>
            rw [hsa] at hss
            rw [Option.isNone_iff_eq_none] at hss
            simp [hss]
        · rw [k3, hss]; simp
      · rw [if_neg hh] at hc; simp at hc

/-! ## All the domains -/

theorem applyFirst_trace {root : Elem} (wf : root.WF) (hw : Hardware) {cs : List Criterion} (force : Bool)
    {ds : List Domain} (h : ∀ d ∈ ds, d.Good root) (hr : ∀ d ∈ ds, RulesOK cs d.configs) {m : Mem}
    (hm : m.main.length = root.footprint) (ss : SyncerSet) :
    ∃ as b ss', applyFirst root hw cs force ds m ss =
        some (ds.map (fun d => if d.seqAware then d else d.target cs force), ⟨b, m.log⟩, ss') ∧
      Plan cs force false ds as ∧ WrittenAll root as m.main b ∧
      (∀ x, x ∈ ss' ↔ x ∈ ss ∨ ∃ d ∈ ds, d.seqAware = false ∧ (∃ c, Switches cs force d c) ∧ x ∈ d.syncSet) ∧
      (ss.Pairwise (· < ·) → ss'.Pairwise (· < ·)) := by
  induction ds generalizing m ss with
  | nil => exact ⟨[], m.main, ss, rfl, .nil, .nil _, by simp, fun h => h⟩
  | cons d ds ih =>
    have hd := h d (by simp)
    have hrd := hr d (by simp)
    have h' : ∀ x ∈ ds, x.Good root := fun x hx => h x (by simp [hx])
    have hr' : ∀ x ∈ ds, RulesOK cs x.configs := fun x hx => hr x (by simp [hx])
    cases hsa : d.seqAware with
    | true =>
      obtain ⟨as, b, ss', k1, k2, k3, k4, k5⟩ := ih h' hr' hm ss
      refine ⟨as, b, ss', ?_, .skip d ds as (.inl (by simp [hsa])) k2, k3, ?_, k5⟩
      · simp only [applyFirst, Domain.apply_skip root hw cs force d m (some ss) (by simp [hsa]), Option.getD_some, k1,
          List.map_cons, hsa, if_true]
      · intro x; rw [k4]; simp [hsa]
    | false =>
      obtain ⟨a1, a2⟩ := Domain.apply_spec wf hw force hd hrd hm (some ss) (by simp [hsa])
      cases hsw : d.switchTo cs force with
      | none =>
        have hno : ∀ c, ¬ Switches cs force d c := by
          intro c hc
          have := (Domain.switchTo_spec hrd c).2 hc
          rw [hsw] at this; simp at this
        obtain ⟨as, b, ss', k1, k2, k3, k4, k5⟩ := ih h' hr' hm ss
        refine ⟨as, b, ss', ?_, .skip d ds as (.inr hno) k2, k3, ?_, k5⟩
        · simp only [applyFirst, a1 hsw, Option.getD_some, k1, List.map_cons, hsa]; simp
        · intro x; rw [k4]; simp [hno]
      | some c =>
        have hc := (Domain.switchTo_spec hrd c).1 hsw
        obtain ⟨m1, ev, b1, b2, b3⟩ := a2 c hsw
        have hm1 : m1.main.length = root.footprint := by rw [b2.written.length, hm]
        have hlog : m1.log = m.log := by rw [b3, hsa]; simp
        obtain ⟨as, b, ss', k1, k2, k3, k4, k5⟩ := ih h' hr' hm1 (ss.union d.syncSet)
        refine ⟨c.areas ++ as, b, ss', ?_, .switch d ds c as hsa hc k2, b2.written.append k3, ?_, fun hs => k5 (union_sorted hs)⟩
        · simp only [applyFirst, b1, Option.map_some, Option.getD_some, k1, List.map_cons, hsa, hlog]; simp
        · intro x
          rw [k4, mem_union]
          constructor
          · rintro ((hx | hx) | ⟨y, hy, hx⟩)
            · exact .inl hx
            · exact .inr ⟨d, by simp, hsa, ⟨c, hc⟩, hx⟩
            · exact .inr ⟨y, by simp [hy], hx⟩
          · rintro (hx | ⟨y, hy, h1, h2, h3⟩)
            · exact .inl (.inl hx)
            · rcases List.mem_cons.1 hy with rfl | hy
              · exact .inl (.inr h3)
              · exact .inr ⟨y, hy, h1, h2, h3⟩

theorem applySecond_trace {root : Elem} (wf : root.WF) (hw : Hardware) {cs : List Criterion} (force : Bool)
    {ds : List Domain} (h : ∀ d ∈ ds, d.Good root) (hr : ∀ d ∈ ds, RulesOK cs d.configs) {m : Mem}
    (hm : m.main.length = root.footprint) :
    ∃ as b ev, applySecond root hw cs force ds m =
        some (ds.map (fun d => if d.seqAware then d.target cs force else d), ⟨b, m.log ++ ev⟩) ∧
      Plan cs force true ds as ∧ ElementByElement root as m.main ev b := by
  induction ds generalizing m with
  | nil => exact ⟨[], m.main, [], by simp [applySecond], .nil, .nil _⟩
  | cons d ds ih =>
    have hd := h d (by simp)
    have hrd := hr d (by simp)
    have h' : ∀ x ∈ ds, x.Good root := fun x hx => h x (by simp [hx])
    have hr' : ∀ x ∈ ds, RulesOK cs x.configs := fun x hx => hr x (by simp [hx])
    cases hsa : d.seqAware with
    | false =>
      obtain ⟨as, b, ev, k1, k2, k3⟩ := ih h' hr' hm
      refine ⟨as, b, ev, ?_, .skip d ds as (.inl (by simp [hsa])) k2, k3⟩
      simp only [applySecond, Domain.apply_skip root hw cs force d m none (by simp [hsa]), k1, List.map_cons, hsa]
      simp
    | true =>
      obtain ⟨a1, a2⟩ := Domain.apply_spec wf hw force hd hrd hm none (by simp [hsa])
      cases hsw : d.switchTo cs force with
      | none =>
        have hno : ∀ c, ¬ Switches cs force d c := by
          intro c hc
          have := (Domain.switchTo_spec hrd c).2 hc
          rw [hsw] at this; simp at this
        obtain ⟨as, b, ev, k1, k2, k3⟩ := ih h' hr' hm
        refine ⟨as, b, ev, ?_, .skip d ds as (.inr hno) k2, k3⟩
        simp only [applySecond, a1 hsw, k1, List.map_cons, hsa, if_true]
      | some c =>
        have hc := (Domain.switchTo_spec hrd c).1 hsw
        obtain ⟨m1, ev, b1, b2, b3⟩ := a2 c hsw
        have hm1 : m1.main.length = root.footprint := by rw [b2.written.length, hm]
        obtain ⟨as, b, ev', k1, k2, k3⟩ := ih h' hr' hm1
        refine ⟨c.areas ++ as, b, ev ++ ev', ?_, .switch d ds c as hsa hc k2, b2.append k3⟩
        simp only [applySecond, b1, k1, List.map_cons, hsa, if_true, b3, List.append_assoc]

/-- The areas the sequence-aware domains write do not depend on what the first pass changed. -/
theorem Spec.Plan.after_first {cs : List Criterion} {force : Bool} {ds : List Domain} {as : List Area}
    (h : Plan cs force true (ds.map (fun d => if d.seqAware then d else d.target cs force)) as) :
    Plan cs force true ds as := by
  induction ds generalizing as with
  | nil => exact h
  | cons d ds ih =>
    cases hsa : d.seqAware with
    | true =>
      simp only [List.map_cons, hsa, if_true] at h
      cases h with
      | skip _ _ _ hs rest => exact .skip d ds as hs (ih rest)
      | switch _ _ c as' ha hs rest => exact .switch d ds c as' ha hs (ih rest)
    | false =>
      simp only [List.map_cons, hsa] at h
      refine .skip d ds as (.inl (by simp [hsa])) (ih ?_)
      cases h with
      | skip _ _ _ hs rest => exact rest
      | switch _ _ c as' ha hs rest => simp [Domain.target, hsa] at ha

theorem applyDomains_trace {root : Elem} (wf : root.WF) (hw : Hardware) {cs : List Criterion} (force : Bool)
    {ds : List Domain} (h : ∀ d ∈ ds, d.Good root) (hr : ∀ d ∈ ds, RulesOK cs d.configs) {m : Mem}
    (hm : m.main.length = root.footprint) {ss0 : SyncerSet} (hss : ss0.Pairwise (· < ·)) :
    ∃ (as : List Area) (b1 : Board) (ss : SyncerSet) (as' : List Area) (ev : List SyncEvent) (b2 : Board), applyDomains root hw cs force ss0 ds m =
        some (ds.map (Domain.target cs force), ⟨b2, m.log ++ ss.map (fun x => ⟨x, b1⟩) ++ ev⟩) ∧
      Plan cs force false ds as ∧ WrittenAll root as m.main b1 ∧
      (∀ x, x ∈ ss ↔ x ∈ ss0 ∨ ∃ d ∈ ds, d.seqAware = false ∧ (∃ c, Switches cs force d c) ∧ x ∈ d.syncSet) ∧ ss.Nodup ∧
      Plan cs force true ds as' ∧ ElementByElement root as' b1 ev b2 := by
  obtain ⟨as, b1, ss, h1, h2, h3, h4, h5⟩ := applyFirst_trace wf hw force h hr hm ss0
  obtain ⟨as', b2, ev, k1, k2, k3⟩ := applySecond_trace wf hw force
    (ds := ds.map (fun d => if d.seqAware then d else d.target cs force))
    (by
      intro d hd
      obtain ⟨d0, hd0, rfl⟩ := List.mem_map.1 hd
      split
      · exact h d0 hd0
      · exact Domain.target_good (h d0 hd0))
    (by
      intro d hd
      obtain ⟨d0, hd0, rfl⟩ := List.mem_map.1 hd
      split
      · exact hr d0 hd0
      · exact hr d0 hd0)
    (m := ⟨b1, (syncAll hw b1 ss m.log).1⟩) (by rw [h3.length, hm])
  refine ⟨as, b1, ss, as', ev, b2, ?_, h2, h3, h4, sorted_nodup (h5 hss),
    Plan.after_first k2, k3⟩
  rw [syncAll_log] at k1
  simp only [applyDomains, h1, syncAll_log, k1, List.map_map, Option.some.injEq, Prod.mk.injEq, and_true]
  apply List.map_congr_left
  intro d _
  simp only [Function.comp_apply]
  cases hsa : d.seqAware <;> simp [Domain.target, hsa]

theorem mem_resyncSet {root : Elem} {asked : List Nat} {x : Nat} :
    x ∈ root.resyncSet asked ↔ ∃ i ∈ asked, i < root.children.length ∧ x ∈ root.syncerSet [i] := by
  have key : ∀ (l : List Nat) (acc : SyncerSet), x ∈ l.foldl
      (fun acc i => if asked.contains i then acc.union (root.syncerSet [i]) else acc) acc ↔
      x ∈ acc ∨ ∃ i ∈ l, i ∈ asked ∧ x ∈ root.syncerSet [i] := by
    intro l
    induction l with
    | nil => simp
    | cons i l ih =>
      intro acc
      rw [List.foldl_cons, ih]
      by_cases h : i ∈ asked
      · simp [h, mem_union, or_assoc]
      · simp [h]
  unfold Elem.resyncSet
  rw [key]
  constructor
  · rintro (h | ⟨i, hi, h1, h2⟩)
    · simp at h
    · exact ⟨i, h1, by simpa using hi, h2⟩
  · rintro ⟨i, h1, hi, h2⟩
    exact .inr ⟨i, by simpa using hi, h1, h2⟩

theorem resyncSet_sorted (root : Elem) (asked : List Nat) : (root.resyncSet asked).Pairwise (· < ·) := by
  have key : ∀ (l : List Nat) (acc : SyncerSet), acc.Pairwise (· < ·) → (l.foldl
      (fun acc i => if asked.contains i then acc.union (root.syncerSet [i]) else acc) acc).Pairwise (· < ·) := by
    intro l
    induction l with
    | nil => intro acc h; exact h
    | cons i l ih =>
      intro acc h
      rw [List.foldl_cons]
      split
      · exact ih _ (union_sorted h)
      · exact ih _ h
  exact key _ [] List.Pairwise.nil

end PF
