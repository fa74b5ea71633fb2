import Verif.Lemmas.EddBuilt
import Verif.Props.Edd

/-!
# Lemmas: running the commands of a description
-/

namespace PF
open Spec

attribute [local irreducible] runCommand processCommand mgrHandler

/-- Between two hosts only the domains differ. -/
structure OnlyDomains (h h' : Host) : Prop where
  mgr : h'.mgr = { h.mgr with st := h'.mgr.st }
  criteria : h'.mgr.st.criteria = h.mgr.st.criteria
  mem : h'.mgr.st.mem = h.mgr.st.mem

theorem OnlyDomains.refl (h : Host) : OnlyDomains h h := ⟨rfl, rfl, rfl⟩

theorem OnlyDomains.trans {a b c : Host} (h1 : OnlyDomains a b) (h2 : OnlyDomains b c) : OnlyDomains a c :=
  ⟨by rw [h2.mgr, h1.mgr], h2.criteria.trans h1.criteria, h2.mem.trans h1.mem⟩

theorem OnlyDomains.ctx {a b : Host} (h : OnlyDomains a b) : b.mgr.ctx = a.mgr.ctx := by
  rw [h.mgr]; rfl

theorem OnlyDomains.of {h h' : Host} {op : DomOp} {e : MEnv} (h1 : h'.mgr = { h.mgr with st := (op.step e.env h.mgr.st).2 })
    (hc : (op.step e.env h.mgr.st).2.criteria = h.mgr.st.criteria) (hm : (op.step e.env h.mgr.st).2.mem = h.mgr.st.mem) :
    OnlyDomains h h' ∧ h'.mgr.st = (op.step e.env h.mgr.st).2 := by
  have : h'.mgr.st = (op.step e.env h.mgr.st).2 := by rw [h1]
  exact ⟨⟨by rw [h1], by rw [this, hc], by rw [this, hm]⟩, this⟩

theorem sequence_needs_paths {u : Unmodelled} {e : MEnv} {h h' : Host} {n cn t : Str} (hk : ∀ w ∈ [n, cn], Kept w)
    (hr : runCommand u e h (s "setElementSequence") [n, cn] = (some (true, t), h')) : False := by
  unfold runCommand at hr
  rw [kept_map hk] at hr
  have hlt : 30 < commandTable.length := by decide
  have hmem : Command.item u e commandTable[30] ∈ mgrHandler u e := by
    rw [mgrHandler_eq]
    exact List.mem_cons_of_mem _ (List.mem_map_of_mem (List.getElem_mem hlt))
  have := C47_too_few (mgrHandler u e) (C47_table u e).2 (Command.item u e commandTable[30]) hmem (by
    show s "setElementSequence" ≠ s "help"
    decide) h [n, cn] (by
    show 2 < 3
    decide)
  have hname : (Command.item u e commandTable[30]).name = s "setElementSequence" := rfl
  rw [hname] at this
  rw [this] at hr
  simp at hr

section
variable {u : Unmodelled} {e : MEnv} {cs : List Criterion}

/-- What the configuration `cn` of the domain `n` holds: settings that agree with the memory outside of the elements, and then the texts. -/
def Holds (env : Env) (ctx : Ctx) (elems : List Pos) (st : St) (n cn : Str) (l : List (Str × Str)) : Prop :=
  ∀ (hw : Hardware) (sync : Bool) (m : Mem), m.main.length = env.root.footprint → ∃ b0 b, b0.length = env.root.footprint ∧
    (∀ i, (∀ q ∈ elems, ¬ env.root.Owns q i) → b0.bit i = m.main.bit i) ∧ SetAll env.rd ctx env.root b0 l b ∧
    restored env.root hw sync st m n cn = some b

theorem setAll_snoc {rd : Reader} {ctx : Ctx} {root : Elem} {b0 b b1 : Board} {l : List (Str × Str)} {p v : Str}
    (h : SetAll rd ctx root b0 l b) (h1 : Elem.setText rd ctx root 0 b p v = (.ok (), b1)) :
    SetAll rd ctx root b0 (l ++ [(p, v)]) b1 := by
  induction h with
  | nil b => exact .cons h1 (.nil _)
  | cons g _ ih => exact .cons g (ih h1)

theorem run_values (wf : e.env.root.WF) (fd : e.env.root.FieldsDisjoint) {n cn : Str} {old : List Domain} {d : Domain} (hl : d.last = none)
    {pre : List Config} : ∀ {l l0 : List (Str × Str)} {h h' : Host} {c : Config},
    Ran u e h (l.map fun x => [s "setConfigurationParameter", n, cn, x.1, x.2]) h' 0 →
    (∀ k ∈ l.map fun x => [s "setConfigurationParameter", n, cn, x.1, x.2], ∀ w ∈ k, Kept w) →
    Reachable e.env cs h.mgr.st → Writing old n d pre cn c h.mgr.st → Holds e.env h.mgr.ctx d.elems h.mgr.st n cn l0 →
    ∃ c', c'.rule = c.rule ∧ OnlyDomains h h' ∧ Reachable e.env cs h'.mgr.st ∧ Writing old n d pre cn c' h'.mgr.st ∧
      Holds e.env h.mgr.ctx d.elems h'.mgr.st n cn (l0 ++ l)
  | [], l0, h, h', c, hr, _, reach, w, hh => by
    cases hr
    exact ⟨c, rfl, .refl h, reach, w, by simpa using hh⟩
  | x :: l, l0, h, h', c, hr, hk, reach, w, hh => by
    obtain ⟨p, v⟩ := x
    cases hr with
    | done h1 h2 =>
      rename_i hm t
      have hop := accepted_op (u := u) (h := h) (op := .setConfigurationParameter n cn p (joinWith ' ' [v])) (fun w hw =>
        hk [s "setConfigurationParameter", n, cn, p, v] (by simp) w (List.mem_cons_of_mem _ hw)) h1 (.setConfigurationParameter n cn p v [])
      have hv : joinWith ' ' [v] = v := by simp [joinWith]
      rw [hv] at hop
      obtain ⟨g1, g2⟩ := run_ok hop
      obtain ⟨c1, k1, k2, k3, k4, k5⟩ := built_value wf fd reach w hl h.mgr.ctx h.mgr.autoSync p v g1
      obtain ⟨o1, o2⟩ := OnlyDomains.of g2 k3 k4
      have reach1 : Reachable e.env cs hm.mgr.st := by rw [o2]; exact .step reach trivial (by rw [g1]; simp)
      have hh1 : Holds e.env hm.mgr.ctx d.elems hm.mgr.st n cn (l0 ++ [(p, v)]) := by
        intro hw sync m hlen
        obtain ⟨b0, b, q0, q1, q2, q3⟩ := hh hw sync m hlen
        obtain ⟨b1, q4, q5⟩ := k5 hw sync m b hlen q3
        rw [o1.ctx, o2]
        exact ⟨b0, b1, q0, q1, setAll_snoc q2 q4, q5⟩
      obtain ⟨c2, r1, r2, r3, r4, r5⟩ := run_values wf fd hl h2 (fun k hk' => hk k (by simp only [List.map_cons, List.mem_cons]; exact .inr hk'))
        reach1 (by rw [o2]; exact k2) hh1
      refine ⟨c2, r1.trans k1, o1.trans r2, r3, r4, ?_⟩
      rw [o1.ctx] at r5
      simpa [List.append_assoc] using r5

theorem run_setRule (wf : e.env.root.WF) {n cn t : Str} {old : List Domain} {d : Domain} {pre : List Config} {h h' : Host} {c : Config}
    (hr : Ran u e h [[s "setRule", n, cn, t]] h' 0) (hk : ∀ w ∈ [n, cn, t], Kept w) (reach : Reachable e.env cs h.mgr.st)
    (w : Writing old n d pre cn c h.mgr.st) :
    ∃ r, parseRule h.mgr.st.criteria t = .ok r ∧ OnlyDomains h h' ∧ Reachable e.env cs h'.mgr.st ∧
      Writing old n d pre cn { c with rule := some r } h'.mgr.st ∧ n ≠ [] ∧ cn ≠ [] := by
  cases hr with
  | done h1 h2 =>
    cases h2
    have hop := accepted_op (u := u) (h := h) (op := .setApplicationRule n cn (joinWith ' ' [t])) hk h1 (.setRule n cn t [])
    have hv : joinWith ' ' [t] = t := by simp [joinWith]
    rw [hv] at hop
    obtain ⟨g1, g2⟩ := run_ok hop
    obtain ⟨r, k1, k2, k3, k4, k5⟩ := built_setRule w (reach.inv wf) t g1
    obtain ⟨o1, o2⟩ := OnlyDomains.of g2 k3 k4
    exact ⟨r, k1, o1, by rw [o2]; exact .step reach trivial (by rw [g1]; simp), by rw [o2]; exact k2, k5⟩

theorem run_sequence (wf : e.env.root.WF) (fd : e.env.root.FieldsDisjoint) {n cn : Str} {ps : List Str} {old : List Domain} {d : Domain}
    {pre : List Config} {h h' : Host} {c : Config} {l : List (Str × Str)}
    (hr : Ran u e h [[s "setElementSequence", n, cn] ++ ps] h' 0) (hk : ∀ w ∈ [n, cn] ++ ps, Kept w)
    (reach : Reachable e.env cs h.mgr.st) (w : Writing old n d pre cn c h.mgr.st)
    (hh : Holds e.env h.mgr.ctx d.elems h.mgr.st n cn l) :
    ∃ c', c'.rule = c.rule ∧ OnlyDomains h h' ∧ Reachable e.env cs h'.mgr.st ∧ Writing old n d pre cn c' h'.mgr.st ∧
      Holds e.env h.mgr.ctx d.elems h'.mgr.st n cn l := by
  cases hr with
  | done h1 h2 =>
    cases h2
    cases ps with
    | nil => exact (sequence_needs_paths (by simpa using hk) h1).elim
    | cons p ps =>
      have hop := accepted_op (u := u) (h := h) (op := .setElementSequence n cn (p :: ps)) hk h1 (.setElementSequence n cn p ps)
      obtain ⟨g1, g2⟩ := tuned_ok hop
      obtain ⟨c', k1, k2, k3, k4⟩ := built_sequence w (reach.inv wf) (p :: ps) g1
      obtain ⟨o1, o2⟩ := OnlyDomains.of g2 k3 k4
      refine ⟨c', k1, o1, by rw [o2]; exact .step reach trivial (by rw [g1]; simp), by rw [o2]; exact k2, ?_⟩
      intro hw sync m hlen
      obtain ⟨b0, b, q0, q1, q2, q3⟩ := hh hw sync m hlen
      refine ⟨b0, b, q0, q1, q2, ?_⟩
      rw [o2]
      exact sequence_restored wf fd reach n cn (p :: ps) hw sync m b hlen q3

theorem run_createConfiguration (wf : e.env.root.WF) {n cn : Str} {old : List Domain} {d : Domain} {h h' : Host}
    (hr : Ran u e h [[s "createConfiguration", n, cn]] h' 0) (hk : ∀ w ∈ [n, cn], Kept w) (reach : Reachable e.env cs h.mgr.st)
    (w : Working old n d h.mgr.st) :
    ∃ c, OnlyDomains h h' ∧ Reachable e.env cs h'.mgr.st ∧ Writing old n d d.configs cn c h'.mgr.st := by
  cases hr with
  | done h1 h2 =>
    cases h2
    have hop := accepted_op (u := u) (h := h) (op := .createConfiguration n cn) hk h1 (.createConfiguration n cn [])
    obtain ⟨g1, g2⟩ := tuned_ok hop
    obtain ⟨c, k1, k2, k3, k4, k5, k6⟩ := built_createConfiguration wf w (reach.inv wf) cn g1
    obtain ⟨o1, o2⟩ := OnlyDomains.of g2 k5 k6
    exact ⟨c, o1, by rw [o2]; exact .step reach trivial (by rw [g1]; simp), ⟨by rw [o2]; exact k4, k3, k1⟩⟩

/-- What a configuration object holds. -/
def HoldsIn (env : Env) (ctx : Ctx) (d : Domain) (c : Config) (l : List (Str × Str)) : Prop :=
  ∀ (hw : Hardware) (sync : Bool) (m : Mem), m.main.length = env.root.footprint → ∃ b0 b, b0.length = env.root.footprint ∧
    (∀ i, (∀ q ∈ d.elems, ¬ env.root.Owns q i) → b0.bit i = m.main.bit i) ∧ SetAll env.rd ctx env.root b0 l b ∧
    (restoreAreas env.root hw d.syncOf (sync && d.seqAware) c.areas m).map (fun r => r.1.main) = some b

/-- The commands of a configuration. -/
theorem run_conf (wf : e.env.root.WF) (fd : e.env.root.FieldsDisjoint) {n cn t : Str} {ps : List Str} {l : List (Str × Str)} {aw : Bool}
    {old : List Domain} {d : Domain} {h h' : Host} (hl : d.last = none)
    (hr : Ran u e h ([[s "createConfiguration", n, cn], [s "setRule", n, cn, t]] ++
      (if aw then [[s "setElementSequence", n, cn] ++ ps] else []) ++
      l.map fun x => [s "setConfigurationParameter", n, cn, x.1, x.2]) h' 0)
    (hk : ∀ k ∈ [[s "createConfiguration", n, cn], [s "setRule", n, cn, t]] ++
      (if aw then [[s "setElementSequence", n, cn] ++ ps] else []) ++
      l.map fun x => [s "setConfigurationParameter", n, cn, x.1, x.2], ∀ w ∈ k, Kept w)
    (reach : Reachable e.env cs h.mgr.st) (w : Working old n d h.mgr.st) :
    ∃ c r, parseRule h.mgr.st.criteria t = .ok r ∧ c.rule = some r ∧ n ≠ [] ∧ cn ≠ [] ∧ OnlyDomains h h' ∧
      Reachable e.env cs h'.mgr.st ∧ Writing old n d d.configs cn c h'.mgr.st ∧ HoldsIn e.env h.mgr.ctx d c l := by
  rw [List.append_assoc] at hr
  obtain ⟨hb, hr1, hr2⟩ := ran_append (a := [[s "createConfiguration", n, cn], [s "setRule", n, cn, t]]) hr
  obtain ⟨ha, hr0, hr1⟩ := ran_append (a := [[s "createConfiguration", n, cn]]) (b := [[s "setRule", n, cn, t]]) hr1
  obtain ⟨hc, hr2, hr3⟩ := ran_append hr2
  have kr : ∀ w ∈ [n, cn, t], Kept w := fun w hw => hk [s "setRule", n, cn, t] (by simp) w (List.mem_cons_of_mem _ hw)
  obtain ⟨c0, o1, r1, w1⟩ := run_createConfiguration wf hr0 (fun w hw => kr w (by
    simp only [List.mem_cons, List.not_mem_nil, or_false] at hw ⊢
    rcases hw with hw | hw
    · exact .inl hw
    · exact .inr (.inl hw))) reach w
  obtain ⟨r, p2, o2, r2, w2, hn, hcn⟩ := run_setRule wf hr1 kr r1 w1
  have h0 : Holds e.env hb.mgr.ctx d.elems hb.mgr.st n cn [] := by
    intro hw sync m hlen
    obtain ⟨b, q1, q2, q3, _⟩ := (r2.inv wf).restored wf fd hw sync hlen (w2.working.found hn) (w2.found hcn)
    exact ⟨b, b, q2, q3, .nil b, q1⟩
  have seq : ∃ c', c'.rule = some r ∧ OnlyDomains hb hc ∧ Reachable e.env cs hc.mgr.st ∧ Writing old n d d.configs cn c' hc.mgr.st ∧
      Holds e.env hb.mgr.ctx d.elems hc.mgr.st n cn [] := by
    cases aw with
    | false =>
      simp only [Bool.false_eq_true, if_false] at hr2
      cases hr2
      exact ⟨_, rfl, .refl _, r2, w2, h0⟩
    | true =>
      simp only [if_true] at hr2
      refine run_sequence wf fd hr2 (fun w hw => hk ([s "setElementSequence", n, cn] ++ ps) (by simp) w ?_) r2 w2 h0
      simp only [List.mem_append, List.mem_cons, List.not_mem_nil, or_false] at hw ⊢
      rcases hw with (hw | hw) | hw
      · exact .inl (.inr (.inl hw))
      · exact .inl (.inr (.inr hw))
      · exact .inr hw
  obtain ⟨c1, e1, o3, r3, w3, h3⟩ := seq
  rw [← o3.ctx] at h3
  obtain ⟨c2, e2, o4, r4, w4, h4⟩ := run_values wf fd hl hr3 (fun k hkm => hk k (List.mem_append_right _ hkm)) r3 w3 h3
  refine ⟨c2, r, by rw [← o1.criteria]; exact p2, e2.trans e1, hn, hcn, ((o1.trans o2).trans o3).trans o4, r4, w4, ?_⟩
  intro hw sync m hlen
  obtain ⟨b0, b, q0, q1, q2, q3⟩ := h4 hw sync m hlen
  rw [((o1.trans o2).trans o3).ctx] at q2
  rw [restored_eq hw sync h'.mgr.st m (w4.working.found hn) (w4.found hcn)] at q3
  exact ⟨b0, b, q0, q1, q2, q3⟩

/-- The configuration `c` of the domain `d` is the one of the description at the end of `y`. -/
structure ConfB (env : Env) (ctx : Ctx) (criteria : List Criterion) (rules : EddChain → List EddNode) (d : Domain)
    (y : EddChain × (List EddNode × EddNode)) (c : Config) : Prop where
  name : c.name = eddFullName (y.1 ++ [y.2])
  rule : ∀ rs, EddMeansAll criteria (rules (y.1 ++ [y.2])) rs → ∀ cs, Qualifies cs c ↔ ∀ q ∈ rs, Sat cs q
  holds : HoldsIn env ctx d c (eddSettings y.2.2)

theorem findConfig_more {d : Domain} {a b : List Config} {cn : Str} {c : Config}
    (h : Domain.findConfig { d with configs := a } cn = some c) : Domain.findConfig { d with configs := a ++ b } cn = some c := by
  unfold Domain.findConfig at h ⊢
  rw [List.find?_append]
  simp only at h
  rw [h]
  rfl

/-- The commands of the configurations of a domain. -/
theorem run_confs (wf : e.env.root.WF) (fd : e.env.root.FieldsDisjoint) {n : Str} {aw : Bool} {rules : EddChain → List EddNode}
    {old : List Domain} : ∀ {ys : List (EddChain × (List EddNode × EddNode))} {confs : List EddCmd} {d : Domain} {h h' : Host},
    d.last = none →
    eddSeq (ys.map fun y => eddBlock n aw ((y.1 ++ [y.2]).map fun z => z.2.el.name) (rules (y.1 ++ [y.2])) [] y.2.2.kids) = some confs →
    Ran u e h confs h' 0 → (∀ k ∈ confs, ∀ w ∈ k, Kept w) → Reachable e.env cs h.mgr.st → Working old n d h.mgr.st →
    ∃ cfs, OnlyDomains h h' ∧ Reachable e.env cs h'.mgr.st ∧ Working old n { d with configs := d.configs ++ cfs } h'.mgr.st ∧
      cfs.map Config.name = ys.map (fun y => eddFullName (y.1 ++ [y.2])) ∧
      (ys ≠ [] → n ≠ []) ∧
      ∀ y ∈ ys, ∃ c, Domain.findConfig { d with configs := d.configs ++ cfs } (eddFullName (y.1 ++ [y.2])) = some c ∧
        ConfB e.env h.mgr.ctx h.mgr.st.criteria rules d y c
  | [], confs, d, h, h', _, hs, hr, _, reach, w => by
    simp only [List.map_nil, eddSeq, Option.some.injEq] at hs
    subst hs
    cases hr
    refine ⟨[], .refl h, reach, ?_, rfl, by simp, by simp⟩
    rw [List.append_nil]
    exact w
  | y :: ys, confs, d, h, h', hl, hs, hr, hk, reach, w => by
    simp only [List.map_cons, eddSeq] at hs
    obtain ⟨l, r, h1, h2, rfl⟩ := eddAppend_some hs
    obtain ⟨t, ht, rfl⟩ := eddBlock_eq h1
    obtain ⟨hm, hr1, hr2⟩ := ran_append hr
    obtain ⟨c, rl, k1, k2, k3, k4, k5, k6, k7, k8⟩ := run_conf wf fd hl hr1 (fun k hkm => hk k (List.mem_append_left _ hkm)) reach w
    obtain ⟨cfs, i1, i2, i3, i4, _, i5⟩ := run_confs wf fd (d := { d with configs := d.configs ++ [c] }) hl h2 hr2
      (fun k hkm => hk k (List.mem_append_right _ hkm)) k6 k7.working
    have cb : ConfB e.env h.mgr.ctx h.mgr.st.criteria rules d y c := by
      refine ⟨k7.name, fun rs hm q => ?_, k8⟩
      obtain ⟨r', h3, h4⟩ := eddRuleSays ht _ rs hm
      rw [k1] at h3
      simp only [POut.ok.injEq] at h3
      subst h3
      rw [← h4 q]
      unfold Qualifies
      rw [k2]
      simp
    have app : d.configs ++ [c] ++ cfs = d.configs ++ c :: cfs := by simp
    refine ⟨c :: cfs, k5.trans i1, i2, ?_, ?_, fun _ => k3, ?_⟩
    · rw [← app]; exact i3
    · simp [i4, k7.name]
    · intro y' hy'
      rw [← app]
      rcases List.mem_cons.1 hy' with rfl | hy'
      · exact ⟨c, findConfig_more (k7.found k4), cb⟩
      · obtain ⟨c', j1, j2⟩ := i5 y' hy'
        rw [k5.ctx, k5.criteria] at j2
        exact ⟨c', j1, j2.name, j2.rule, j2.holds⟩

/-- The commands that give elements to a domain. -/
theorem run_adds (wf : e.env.root.WF) {n : Str} {old : List Domain} : ∀ {head : List Str} {d : Domain} {h h' : Host},
    d.configs = [] → Ran u e h (head.map fun p => [s "addElement", n, p]) h' 0 →
    (∀ k ∈ head.map fun p => [s "addElement", n, p], ∀ w ∈ k, Kept w) → Reachable e.env cs h.mgr.st → Working old n d h.mgr.st →
    ∃ d', OnlyDomains h h' ∧ Reachable e.env cs h'.mgr.st ∧ Working old n d' h'.mgr.st ∧ d.SameHead d' ∧ d'.configs = [] ∧
      (∀ q ∈ d'.elems, q ∈ d.elems ∨ ∃ path ∈ head, e.env.root.locate path = some q) ∧
      (∀ q ∈ d.elems, ∃ q' ∈ d'.elems, q' <+: q) ∧
      (∀ path ∈ head, ∃ p, e.env.root.locate path = some p ∧ ∃ q ∈ d'.elems, q <+: p)
  | [], d, h, h', hc, hr, _, reach, w => by
    cases hr
    exact ⟨d, .refl h, reach, w, ⟨rfl, rfl, rfl, rfl⟩, hc, fun q hq => .inl hq, fun q hq => ⟨q, hq, List.prefix_rfl⟩, by simp⟩
  | p :: head, d, h, h', hc, hr, hk, reach, w => by
    cases hr with
    | done h1 h2 =>
      rename_i hm t
      have hop := accepted_op (u := u) (h := h) (op := .addElement n p) (fun w hw =>
        hk [s "addElement", n, p] (by simp) w (List.mem_cons_of_mem _ hw)) h1 (.addElement n p [])
      obtain ⟨g1, g2⟩ := tuned_ok hop
      obtain ⟨pp, d1, k1, k2, k3, k4, k5, k6, k7⟩ := built_addElement wf w (reach.inv wf) p g1
      obtain ⟨o1, o2⟩ := OnlyDomains.of g2 k6 k7
      obtain ⟨d2, i1, i2, i3, i4, i5, i6, i7, i8⟩ := run_adds wf (d := d1) (k5 hc) h2
        (fun k hkm => hk k (by simp only [List.map_cons, List.mem_cons]; exact .inr hkm))
        (by rw [o2]; exact .step reach trivial (by rw [g1]; simp)) (by rw [o2]; exact k2)
      refine ⟨d2, o1.trans i1, i2, i3, ⟨i4.id.trans k3.id, i4.name.trans k3.name, i4.seqAware.trans k3.seqAware, i4.last.trans k3.last⟩,
        i5, ?_, ?_, ?_⟩
      · intro q hq
        rcases i6 q hq with hq | ⟨path, hp, he⟩
        · rw [k4] at hq
          rcases List.mem_append.1 hq with hq | hq
          · exact .inl (List.mem_filter.1 hq).1
          · simp only [List.mem_cons, List.not_mem_nil, or_false] at hq
            subst hq
            exact .inr ⟨p, by simp, k1⟩
        · exact .inr ⟨path, by simp [hp], he⟩
      · intro q hq
        have : ∃ q1 ∈ d1.elems, q1 <+: q := by
          rw [k4]
          by_cases hd : Pos.isDescendantOf q pp = true
          · exact ⟨pp, by simp, ((Pos.isDescendantOf_iff _ _).1 hd).1⟩
          · exact ⟨q, by simp [hq, hd], List.prefix_rfl⟩
        obtain ⟨q1, hq1, hpre⟩ := this
        obtain ⟨q2, hq2, hpre2⟩ := i7 q1 hq1
        exact ⟨q2, hq2, hpre2.trans hpre⟩
      · intro path hp
        rcases List.mem_cons.1 hp with rfl | hp
        · obtain ⟨q2, hq2, hpre2⟩ := i7 pp (by rw [k4]; simp)
          exact ⟨pp, k1, q2, hq2, hpre2⟩
        · exact i8 path hp

/-- What is said of a domain and of its configurations. -/
structure DomB (env : Env) (ctx : Ctx) (criteria : List Criterion) (x : EddChain × (List EddNode × EddNode)) (d : Domain) : Prop where
  built : DomainBuilt env.root x d
  confs : ∀ y ∈ eddConfChains [] x.2.2.kids, eddFullName (x.1 ++ [x.2]) ≠ [] ∧ ∃ c,
    d.findConfig (eddFullName (y.1 ++ [y.2])) = some c ∧
    ConfB env ctx criteria (fun ch => eddRulesAlong [] (x.1 ++ x.2 :: ch)) d y c

theorem eddSets_iff {dom : EddNode} {head : List Str} (hh : EddHead dom head) (path : Str) : path ∈ head ↔ EddSets dom path := by
  constructor
  · intro hp
    cases hc : eddConfChains [] dom.kids with
    | nil => rw [hh.1 hc] at hp; simp at hp
    | cons y ys =>
      refine ⟨y, by rw [hc]; simp, ?_⟩
      exact ((hh.2 y (by rw [hc]; simp)).trans (eddSettings_names y.2.2)).mem_iff.1 hp
  · rintro ⟨y, hy, hp⟩
    exact ((hh.2 y hy).trans (eddSettings_names y.2.2)).mem_iff.2 hp

/-- The commands of a domain. -/
theorem run_domain (wf : e.env.root.WF) (fd : e.env.root.FieldsDisjoint) {x : EddChain × (List EddNode × EddNode)} {head : List Str}
    {l : List EddCmd} (hh : EddHead x.2.2 head) (hres : eddDomRes head [] [] [] x = some l) {h h' : Host} (hr : Ran u e h l h' 0)
    (hk : ∀ k ∈ l, ∀ w ∈ k, Kept w) (reach : Reachable e.env cs h.mgr.st) :
    ∃ d, OnlyDomains h h' ∧ Reachable e.env cs h'.mgr.st ∧ Working h.mgr.st.domains (eddFullName (x.1 ++ [x.2])) d h'.mgr.st ∧
      DomB e.env h.mgr.ctx h.mgr.st.criteria x d := by
  obtain ⟨confs, rfl, hc⟩ := eddDomRes_eq (gs := x.1) (d := x.2) hres
  generalize hn : eddFullName (x.1 ++ [x.2]) = n at *
  obtain ⟨ha, hr1, hr2⟩ := ran_append hr
  obtain ⟨hb, hr3, hr4⟩ := ran_append hr1
  obtain ⟨hc0, hr5, hr6⟩ := ran_append hr3
  have kc := fun k hkm => hk k (List.mem_append_left _ (List.mem_append_left _ (List.mem_append_left _ hkm)))
  have ka := fun k hkm => hk k (List.mem_append_left _ (List.mem_append_left _ (List.mem_append_right _ hkm)))
  have ke := fun k hkm => hk k (List.mem_append_left _ (List.mem_append_right _ hkm))
  have kf := fun k hkm => hk k (List.mem_append_right _ hkm)
  -- the creation
  have s1 : ∃ d, OnlyDomains h hc0 ∧ Reachable e.env cs hc0.mgr.st ∧ Working h.mgr.st.domains n d hc0.mgr.st ∧ d.last = none ∧
      d.configs = [] ∧ d.elems = [] ∧ d.seqAware = false := by
    cases hr5 with
    | done h1 h2 =>
      cases h2
      have hop := accepted_op (u := u) (h := h) (op := .createDomain n) (fun w hw => kc [s "createDomain", n] (by simp) w (by
        simp only [List.mem_cons] at hw ⊢; exact .inr hw)) h1 (.createDomain n [])
      obtain ⟨g1, g2⟩ := tuned_ok hop
      obtain ⟨k1, k2, k3⟩ := built_createDomain n g1
      obtain ⟨o1, o2⟩ := OnlyDomains.of g2 k2 k3
      exact ⟨_, o1, by rw [o2]; exact .step reach trivial (by rw [g1]; simp), by rw [o2]; exact k1, rfl, rfl, rfl, rfl⟩
  obtain ⟨d1, o1, r1, w1, l1, c1, e1, a1⟩ := s1
  -- the awareness
  have s2 : ∃ d, OnlyDomains hc0 hb ∧ Reachable e.env cs hb.mgr.st ∧ Working h.mgr.st.domains n d hb.mgr.st ∧ d.last = none ∧
      d.configs = [] ∧ d.elems = [] ∧ d.seqAware = eddAware (x.1 ++ [x.2]) := by
    cases haw : eddAware (x.1 ++ [x.2]) with
    | false =>
      rw [haw] at hr6
      simp only [Bool.false_eq_true, if_false] at hr6
      cases hr6
      exact ⟨d1, .refl _, r1, w1, l1, c1, e1, a1⟩
    | true =>
      rw [haw] at hr6 ka
      simp only [if_true] at hr6 ka
      cases hr6 with
      | done h1 h2 =>
        cases h2
        have hop := accepted_op (u := u) (h := hc0) (op := .setSequenceAwareness n true)
          (fun w hw => ka [s "setSequenceAwareness", n, s "true"] (by simp) w (by
            simp only [List.mem_cons] at hw ⊢; exact .inr hw)) h1 (.aware n [])
        obtain ⟨g1, g2⟩ := tuned_ok hop
        obtain ⟨k1, k2, k3⟩ := built_aware w1 (r1.inv wf) true g1
        obtain ⟨o1, o2⟩ := OnlyDomains.of g2 k2 k3
        exact ⟨{ d1 with seqAware := true }, o1, by rw [o2]; exact .step r1 trivial (by rw [g1]; simp), by rw [o2]; exact k1, l1, c1, e1, rfl⟩
  obtain ⟨d2, o2, r2, w2, l2, c2, e2, a2⟩ := s2
  obtain ⟨d3, o3, r3, w3, sh, c3, i1, _, i3⟩ := run_adds wf c2 hr4 ke r2 w2
  obtain ⟨cfs, o4, r4, w4, j1, j2, j3⟩ := run_confs wf fd (rules := fun ch => eddRulesAlong [] (x.1 ++ x.2 :: ch)) (sh.last.trans l2) hc
    hr2 kf r3 w3
  have o5 := (o1.trans o2).trans o3
  rw [c3, List.nil_append] at w4 j3
  refine ⟨{ d3 with configs := cfs }, o5.trans o4, r4, w4, ⟨w4.name.trans hn.symm, sh.seqAware.trans a2, sh.last.trans l2, j1, ?_, ?_⟩, ?_⟩
  · intro q hq
    rcases i1 q hq with hq | ⟨path, hp, he⟩
    · rw [e2] at hq; simp at hq
    · exact ⟨path, (eddSets_iff hh path).1 hp, he⟩
  · intro path hp
    exact i3 path ((eddSets_iff hh path).2 hp)
  · intro y hy
    obtain ⟨c, q1, q2⟩ := j3 y hy
    rw [o5.ctx, o5.criteria] at q2
    refine ⟨?_, c, q1, q2.name, q2.rule, q2.holds⟩
    rw [hn]
    exact j2 (by intro he; rw [he] at hy; simp at hy)

theorem findDomain_more {st st' : St} {more : List Domain} {n : Str} {d : Domain} (hst : st'.domains = st.domains ++ more)
    (h : st.findDomain n = some d) : st'.findDomain n = some d := by
  unfold St.findDomain at h ⊢
  rw [hst, List.find?_append, h]
  rfl

/-- All the commands. -/
theorem run_description (wf : e.env.root.WF) (fd : e.env.root.FieldsDisjoint) {xs : List (EddChain × (List EddNode × EddNode))}
    {o : Option (List EddCmd)} (hres : EddDomsRes [] [] [] xs o) : ∀ {cmds : List EddCmd} {h h' : Host}, o = some cmds →
    Ran u e h cmds h' 0 → (∀ k ∈ cmds, ∀ w ∈ k, Kept w) → Reachable e.env cs h.mgr.st →
    ∃ news, OnlyDomains h h' ∧ Reachable e.env cs h'.mgr.st ∧ h'.mgr.st.domains = h.mgr.st.domains ++ news ∧
      Each (DomainBuilt e.env.root) xs news ∧
      ∀ x ∈ xs, eddConfChains [] x.2.2.kids ≠ [] → ∃ d, h'.mgr.st.findDomain (eddFullName (x.1 ++ [x.2])) = some d ∧
        DomB e.env h.mgr.ctx h.mgr.st.criteria x d := by
  induction hres with
  | nil =>
    intro cmds h h' he hr _ reach
    simp only [Option.some.injEq] at he
    subst he
    cases hr
    exact ⟨[], .refl h, reach, by simp, .nil, by simp⟩
  | @cons x xs head r hh _ ih =>
    intro cmds h h' he hr hk reach
    obtain ⟨l, r', h1, h2, rfl⟩ := eddAppend_some he
    obtain ⟨hm, hr1, hr2⟩ := ran_append hr
    obtain ⟨d, o1, r1, w1, b1⟩ := run_domain wf fd hh h1 hr1 (fun k hkm => hk k (List.mem_append_left _ hkm)) reach
    obtain ⟨news, o2, r2, d2, e2, f2⟩ := ih h2 hr2 (fun k hkm => hk k (List.mem_append_right _ hkm)) r1
    refine ⟨d :: news, o1.trans o2, r2, by rw [d2, w1.domains]; simp, .cons b1.built e2, ?_⟩
    intro y hy hne
    rcases List.mem_cons.1 hy with rfl | hy
    · obtain ⟨z, hz⟩ := List.exists_mem_of_ne_nil _ hne
      exact ⟨d, findDomain_more d2 (w1.found (b1.confs z hz).1), b1⟩
    · have := f2 y hy hne
      rwa [o1.ctx, o1.criteria] at this

end

end PF
