import Verif.Spec.EddBuilt
import Verif.Lemmas.EddCommands
import Verif.Lemmas.ConfigParam
import Verif.Lemmas.Message
import Verif.Lemmas.Manager
import Verif.Props.Command
import Verif.Props.DomainSettings

/-!
# Lemmas: the commands of a description, when none is refused
-/

namespace PF
open Spec

/-! ## Words -/

theorem kept_iff {w : Str} (h : Kept w) : bytesStr (trim (strBytes w)) = w := by
  rw [trim_trimmed h.2]
  unfold bytesStr strBytes
  rw [List.map_map]
  refine (List.map_congr_left (g := id) fun c hc => ?_).trans (List.map_id _)
  have hlt := h.1 c hc
  simp only [Function.comp_apply, BitVec.toNat_ofNat, id_eq]
  rw [Nat.mod_eq_of_lt (by simpa using hlt)]
  exact Char.ofNat_toNat c

theorem kept_map {ws : List Str} (h : ∀ w ∈ ws, Kept w) : (ws.map fun a => bytesStr (trim (strBytes a))) = ws :=
  (List.map_congr_left (g := id) fun w hw => kept_iff (h w hw)).trans (List.map_id _)

/-! ## Commands that are accepted -/

theorem ran_append {u : Unmodelled} {e : MEnv} {h h' : Host} {a b : List (List Str)} (hr : Ran u e h (a ++ b) h' 0) :
    ∃ h1, Ran u e h a h1 0 ∧ Ran u e h1 b h' 0 := by
  induction a generalizing h with
  | nil => exact ⟨h, .nil h, hr⟩
  | cons c a ih =>
    cases hr with
    | done h1 h2 =>
      obtain ⟨h3, h4, h5⟩ := ih h2
      exact ⟨h3, .done h1 h4, h5⟩

/-- What an accepted command did, if it means an operation. -/
theorem accepted_op {u : Unmodelled} {e : MEnv} {h h1 : Host} {cmd t : Str} {args : List Str} {op : MOp} (hk : ∀ w ∈ args, Kept w)
    (hr : runCommand u e h cmd args = (some (true, t), h1)) (hop : Means (u.docs h.files) cmd args op) :
    op.step e h.mgr = (.ok (), h1.mgr) := by
  unfold runCommand at hr
  rw [kept_map hk] at hr
  obtain ⟨g1, g2, g3, g4⟩ := C47_means u e h cmd args op hop
  rw [hr] at g1 g3 g4
  have g1 : h1 = { h with mgr := (op.step e h.mgr).2 } := g1
  cases ho : (op.step e h.mgr).1 with
  | ok _ => exact Prod.ext ho (by rw [g1])
  | err => obtain ⟨t', ht⟩ := g3 ho; simp at ht
  | abort => have := g4 ho; simp at this

theorem run_ok {e : MEnv} {m m1 : Mgr} {op : DomOp} (h : m.run e op = (.ok (), m1)) :
    (op.step e.env m.st).1 = .ok () ∧ m1 = { m with st := (op.step e.env m.st).2 } := by
  unfold Mgr.run at h
  simp only [Prod.mk.injEq] at h
  exact ⟨h.1, h.2.symm⟩

theorem tuned_ok {e : MEnv} {m m1 : Mgr} {op : DomOp} (h : m.tuned e op = (.ok (), m1)) :
    (op.step e.env m.st).1 = .ok () ∧ m1 = { m with st := (op.step e.env m.st).2 } := by
  unfold Mgr.tuned at h
  split at h
  · simp at h
  · exact run_ok h

/-! ## A domain that is being built -/

/-- The domain `d`, of name `n`, is the last one, and no other has this name. -/
structure Working (old : List Domain) (n : Str) (d : Domain) (st : St) : Prop where
  domains : st.domains = old ++ [d]
  others : ∀ x ∈ old, x.pathName ≠ n
  name : d.name = n

theorem Working.find {old : List Domain} {n : Str} {d x : Domain} {st : St} (h : Working old n d st)
    (hx : st.findDomain n = some x) : x = d := by
  obtain ⟨h1, h2⟩ := St.findDomain_mem hx
  rw [h.domains] at h1
  rcases List.mem_append.1 h1 with h1 | h1
  · exact absurd h2 (h.others x h1)
  · simpa using h1

theorem Working.found {old : List Domain} {n : Str} {d : Domain} {st : St} (h : Working old n d st) (hn : n ≠ []) :
    st.findDomain n = some d := by
  unfold St.findDomain
  rw [h.domains, List.find?_append, List.find?_eq_none.2 (fun x hx => by simpa using h.others x hx)]
  have : d.pathName = n := by simp [Domain.pathName, h.name, hn]
  simp [this]

theorem Working.set {root : Elem} {old : List Domain} {n : Str} {d d' : Domain} {st st' : St} (h : Working old n d st)
    (inv : st.Inv root) (hid : d'.id = d.id) (hname : d'.name = d.name) (hst : st'.domains = (st.setDomain d').domains) :
    Working old n d' st' where
  domains := by
    rw [hst]
    show st.domains.map _ = _
    have ids := inv.ids
    rw [h.domains] at ids ⊢
    rw [List.map_append, List.nodup_append] at ids
    rw [List.map_append]
    congr 1
    · refine (List.map_congr_left (g := id) fun x hx => ?_).trans (List.map_id _)
      have : x.id ≠ d'.id := by
        rw [hid]
        exact ids.2.2 _ (List.mem_map_of_mem hx) _ (by simp)
      simp [this]
    · simp [hid]
  others := h.others
  name := hname.trans h.name

theorem pathName_ne_nil (d : Domain) : d.pathName ≠ [] := by
  unfold Domain.pathName
  split
  · assumption
  · simp [s]

theorem conf_pathName_ne_nil (c : Config) : c.pathName ≠ [] := by
  unfold Config.pathName
  split
  · assumption
  · simp [s]

/-! ## The operations -/

section
variable {env : Env} {cs : List Criterion}

theorem built_createDomain {st : St} (n : Str) (h : ((DomOp.createDomain n).step env st).1 = .ok ()) :
    Working st.domains n (Domain.new st.nextId n) ((DomOp.createDomain n).step env st).2 ∧
    ((DomOp.createDomain n).step env st).2.criteria = st.criteria ∧ ((DomOp.createDomain n).step env st).2.mem = st.mem := by
  simp only [DomOp.step, St.createDomain] at h ⊢
  split at h
  · simp at h
  · rename_i hf
    exact ⟨⟨rfl, fun x hx => by simpa using List.find?_eq_none.1 hf x hx, rfl⟩, rfl, rfl⟩

theorem built_aware {st : St} {old : List Domain} {n : Str} {d : Domain} (w : Working old n d st) (inv : st.Inv env.root) (b : Bool)
    (h : ((DomOp.setSequenceAwareness n b).step env st).1 = .ok ()) :
    Working old n { d with seqAware := b } ((DomOp.setSequenceAwareness n b).step env st).2 ∧
    ((DomOp.setSequenceAwareness n b).step env st).2.criteria = st.criteria ∧
    ((DomOp.setSequenceAwareness n b).step env st).2.mem = st.mem := by
  simp only [DomOp.step, St.setSequenceAwareness, St.onDomain] at h ⊢
  cases hf : st.findDomain n with
  | none => rw [hf] at h; simp at h
  | some x =>
    obtain rfl := w.find hf
    exact ⟨w.set inv rfl rfl rfl, rfl, rfl⟩

theorem built_addElement (wf : env.root.WF) {st : St} {old : List Domain} {n : Str} {d : Domain} (w : Working old n d st)
    (inv : st.Inv env.root) (path : Str) (h : ((DomOp.addElement n path).step env st).1 = .ok ()) :
    ∃ p d', env.root.locate path = some p ∧ Working old n d' ((DomOp.addElement n path).step env st).2 ∧ d.SameHead d' ∧
      d'.elems = d.elems.filter (fun q => ¬ Pos.isDescendantOf q p) ++ [p] ∧ (d.configs = [] → d'.configs = []) ∧
      ((DomOp.addElement n path).step env st).2.criteria = st.criteria ∧ ((DomOp.addElement n path).step env st).2.mem = st.mem := by
  simp only [DomOp.step, St.atPath] at h ⊢
  cases hp : env.root.locate path with
  | none => rw [hp] at h; simp at h
  | some p =>
    rw [hp] at h
    simp only [St.addElement, St.onDomain] at h ⊢
    cases hf : st.findDomain n with
    | none => rw [hf] at h; simp at h
    | some x =>
      obtain rfl := w.find hf
      rw [hf] at h
      have hxm := (St.findDomain_mem hf).1
      obtain ⟨f, hat⟩ := Elem.locate_at hp
      simp only [Domain.addElem] at h ⊢
      by_cases h1 : p ∈ x.elems
      · rw [if_pos h1] at h; simp at h
      by_cases h2 : st.attached.belongsTo p x.id = true
      · rw [if_neg h1, if_pos h2] at h; simp at h
      have hanc : ∀ q ∈ x.elems, ¬ q <+: p := fun q hq hqp => h2 ((inv.belongs hxm p).2 ⟨q, hq, hqp⟩)
      obtain ⟨d', att', g1, g2, g3, g4, _, g, g5, _⟩ := Domain.addElem_good wf (inv.good x hxm) (att := st.attached) h1 hanc hat inv.main
      rw [if_neg h1, if_neg h2, g1]
      refine ⟨p, d', rfl, w.set inv g4.id g4.name rfl, g4, g3, fun he => ?_, rfl, rfl⟩
      rw [g5, he]
      rfl

theorem built_createConfiguration (wf : env.root.WF) {st : St} {old : List Domain} {n : Str} {d : Domain} (w : Working old n d st)
    (inv : st.Inv env.root) (cn : Str) (h : ((DomOp.createConfiguration n cn).step env st).1 = .ok ()) :
    ∃ c, c.name = cn ∧ c.rule = none ∧ (∀ x ∈ d.configs, x.pathName ≠ cn) ∧
      Working old n { d with configs := d.configs ++ [c] } ((DomOp.createConfiguration n cn).step env st).2 ∧
      ((DomOp.createConfiguration n cn).step env st).2.criteria = st.criteria ∧
      ((DomOp.createConfiguration n cn).step env st).2.mem = st.mem := by
  simp only [DomOp.step, St.createConfiguration] at h ⊢
  cases hf : st.findDomain n with
  | none => rw [hf] at h; simp at h
  | some x =>
    obtain rfl := w.find hf
    rw [hf] at h
    have hxm := (St.findDomain_mem hf).1
    cases hc : x.findConfig cn with
    | some _ => simp only [Domain.createConfig, hc] at h; simp at h
    | none =>
      have hid : st.nextId ∉ x.configs.map Config.id := by
        intro hm
        obtain ⟨c, hc, he⟩ := List.mem_map.1 hm
        have := (inv.fresh x hxm).2 c hc
        omega
      obtain ⟨c, g1, _, _, g2, g3, _⟩ := Domain.createConfig_spec wf (inv.good x hxm) inv.main hid hc
      simp only [g1]
      exact ⟨c, g2, g3, fun y hy => by simpa using List.find?_eq_none.1 hc y hy, w.set inv rfl rfl rfl, rfl, rfl⟩

/-- The configuration that is being built: the last one of the domain that is being built. -/
structure Writing (old : List Domain) (n : Str) (d : Domain) (pre : List Config) (cn : Str) (c : Config) (st : St) : Prop where
  working : Working old n { d with configs := pre ++ [c] } st
  others : ∀ x ∈ pre, x.pathName ≠ cn
  name : c.name = cn

theorem Writing.find {old : List Domain} {n : Str} {d : Domain} {pre : List Config} {cn : Str} {c x : Config} {st : St}
    (w : Writing old n d pre cn c st) (hx : Domain.findConfig { d with configs := pre ++ [c] } cn = some x) : x = c := by
  obtain ⟨h1, h2⟩ := Domain.findConfig_mem hx
  rcases List.mem_append.1 h1 with h1 | h1
  · exact absurd h2 (w.others x h1)
  · simpa using h1

theorem Writing.found {old : List Domain} {n : Str} {d : Domain} {pre : List Config} {cn : Str} {c : Config} {st : St}
    (w : Writing old n d pre cn c st) (hn : cn ≠ []) : Domain.findConfig { d with configs := pre ++ [c] } cn = some c := by
  unfold Domain.findConfig
  rw [List.find?_append, List.find?_eq_none.2 (fun x hx => by simpa using w.others x hx)]
  have : c.pathName = cn := by simp [Config.pathName, w.name, hn]
  simp [this]

theorem Writing.setConfig {root : Elem} {old : List Domain} {n : Str} {d : Domain} {pre : List Config} {cn : Str} {c c' : Config}
    {st : St} (w : Writing old n d pre cn c st) (inv : st.Inv root) (hid : c'.id = c.id) :
    Domain.setConfig { d with configs := pre ++ [c] } c' = { d with configs := pre ++ [c'] } := by
  have g := (inv.good { d with configs := pre ++ [c] } (by rw [w.working.domains]; simp)).ids
  unfold Domain.setConfig
  congr 1
  simp only [List.map_append, List.nodup_append] at g ⊢
  congr 1
  · refine (List.map_congr_left (g := id) fun x hx => ?_).trans (List.map_id _)
    have : x.id ≠ c'.id := by
      rw [hid]
      exact g.2.2 _ (List.mem_map_of_mem hx) _ (by simp)
    simp [this]
  · simp [hid]

theorem Writing.set {root : Elem} {old : List Domain} {n : Str} {d : Domain} {pre : List Config} {cn : Str} {c c' : Config}
    {st st' : St} (w : Writing old n d pre cn c st) (inv : st.Inv root) (hid : c'.id = c.id) (hname : c'.name = c.name)
    (hst : st'.domains = (st.setDomain (Domain.setConfig { d with configs := pre ++ [c] } c')).domains) :
    Writing old n d pre cn c' st' where
  working := by
    rw [w.setConfig inv hid] at hst
    exact w.working.set (d' := { d with configs := pre ++ [c'] }) inv rfl rfl hst
  others := w.others
  name := hname.trans w.name

/-- An operation on the configuration. -/
theorem built_onConfig {st : St} {old : List Domain} {n : Str} {d : Domain} {pre : List Config} {cn : Str} {c : Config}
    (w : Writing old n d pre cn c st) (inv : st.Inv env.root) {f : Config → Out Unit × Config}
    (hid : ∀ c, (f c).2.id = c.id ∧ (f c).2.name = c.name) (h : (st.onConfig n cn f).1 = .ok ()) :
    (f c).1 = .ok () ∧ Writing old n d pre cn (f c).2 (st.onConfig n cn f).2 ∧ (st.onConfig n cn f).2.criteria = st.criteria ∧
      (st.onConfig n cn f).2.mem = st.mem ∧ n ≠ [] ∧ cn ≠ [] := by
  unfold St.onConfig at h ⊢
  cases hf : st.findDomain n with
  | none => rw [hf] at h; simp at h
  | some x =>
    obtain rfl := w.working.find hf
    rw [hf] at h
    simp only at h ⊢
    cases hc : Domain.findConfig { d with configs := pre ++ [c] } cn with
    | none => rw [hc] at h; simp at h
    | some y =>
      obtain rfl := w.find hc
      rw [hc] at h
      refine ⟨h, w.set inv (hid y).1 (hid y).2 rfl, rfl, rfl, ?_, ?_⟩
      · rw [← (St.findDomain_mem hf).2]; exact pathName_ne_nil _
      · rw [← (Domain.findConfig_mem hc).2]; exact conf_pathName_ne_nil _

theorem built_setRule {st : St} {old : List Domain} {n : Str} {d : Domain} {pre : List Config} {cn : Str} {c : Config}
    (w : Writing old n d pre cn c st) (inv : st.Inv env.root) (t : Str)
    (h : ((DomOp.setApplicationRule n cn t).step env st).1 = .ok ()) :
    ∃ r, parseRule st.criteria t = .ok r ∧
      Writing old n d pre cn { c with rule := some r } ((DomOp.setApplicationRule n cn t).step env st).2 ∧
      ((DomOp.setApplicationRule n cn t).step env st).2.criteria = st.criteria ∧
      ((DomOp.setApplicationRule n cn t).step env st).2.mem = st.mem ∧ n ≠ [] ∧ cn ≠ [] := by
  simp only [DomOp.step, St.setApplicationRule] at h ⊢
  obtain ⟨h1, h2, h3, h4, h5⟩ := built_onConfig w inv (f := fun c => c.setRule st.criteria t) (fun c => by
    unfold Config.setRule; split <;> exact ⟨rfl, rfl⟩) h
  cases hr : parseRule st.criteria t with
  | ok r =>
    have hc : c.setRule st.criteria t = (.ok (), { c with rule := some r }) := by simp [Config.setRule, hr]
    rw [hc] at h2
    exact ⟨r, rfl, h2, h3, h4, h5⟩
  | err _ => simp [Config.setRule, hr] at h1
  | abort => simp [Config.setRule, hr] at h1
  | outOfFuel => simp [Config.setRule, hr] at h1

theorem built_sequence {st : St} {old : List Domain} {n : Str} {d : Domain} {pre : List Config} {cn : Str} {c : Config}
    (w : Writing old n d pre cn c st) (inv : st.Inv env.root) (ps : List Str)
    (h : ((DomOp.setElementSequence n cn ps).step env st).1 = .ok ()) :
    ∃ c', c'.rule = c.rule ∧ Writing old n d pre cn c' ((DomOp.setElementSequence n cn ps).step env st).2 ∧
      ((DomOp.setElementSequence n cn ps).step env st).2.criteria = st.criteria ∧
      ((DomOp.setElementSequence n cn ps).step env st).2.mem = st.mem := by
  simp only [DomOp.step, St.setElementSequence] at h ⊢
  obtain ⟨h1, h2, h3, h4, h5⟩ := built_onConfig w inv (f := fun c => c.setSequence env.root ps) (fun c => ⟨rfl, rfl⟩) h
  exact ⟨_, by rfl, h2, h3, h4⟩

theorem Working.not_last {old : List Domain} {n : Str} {d : Domain} {st : St} (w : Working old n d st) (hl : d.last = none) (cn : Str) :
    ¬ IsLast st n cn := by
  rintro ⟨x, c, h1, h2, h3⟩
  obtain rfl := w.find h1
  rw [hl] at h3
  simp at h3

theorem built_value (wf : env.root.WF) (fd : env.root.FieldsDisjoint) {st : St} (reach : Reachable env cs st) {old : List Domain}
    {n : Str} {d : Domain} {pre : List Config} {cn : Str} {c : Config} (w : Writing old n d pre cn c st) (hl : d.last = none)
    (ctx : Ctx) (auto : Bool) (p v : Str) (h : ((DomOp.setConfigurationParameter ctx auto n cn p v).step env st).1 = .ok ()) :
    ∃ c', c'.rule = c.rule ∧ Writing old n d pre cn c' ((DomOp.setConfigurationParameter ctx auto n cn p v).step env st).2 ∧
      ((DomOp.setConfigurationParameter ctx auto n cn p v).step env st).2.criteria = st.criteria ∧
      ((DomOp.setConfigurationParameter ctx auto n cn p v).step env st).2.mem = st.mem ∧
      ∀ (hw : Hardware) (sync : Bool) (m : Mem) (b : Board), m.main.length = env.root.footprint →
        restored env.root hw sync st m n cn = some b → ∃ b1, Elem.setText env.rd ctx env.root 0 b p v = (.ok (), b1) ∧
          restored env.root hw sync ((DomOp.setConfigurationParameter ctx auto n cn p v).step env st).2 m n cn = some b1 := by
  have inv := reach.inv wf
  simp only [DomOp.step] at h ⊢
  by_cases hno : ∃ pp d c q, env.root.locate p = some pp ∧ st.findDomain n = some d ∧ d.findConfig cn = some c ∧
      q ∈ d.elems ∧ q <+: pp
  case neg =>
    rw [C28_refused wf reach ctx auto n cn p v hno] at h
    simp at h
  case pos =>
    obtain ⟨pp, x, y, q, h1, h2, h3, h4, h5⟩ := hno
    have hlast := w.working.not_last hl cn
    obtain rfl := w.working.find h2
    obtain rfl := w.find h3
    obtain ⟨q', f, base, a, g1, g2, g3, g4, g5, g6, g7, g8, r, hr, heq⟩ := inv.setConfigParam_eq ctx auto v h1 h2 h4 h5 h3
    have hl' : ({ d with configs := pre ++ [y] } : Domain).last ≠ some y.id := by
      show d.last ≠ _
      rw [hl]; simp
    rw [if_neg hl'] at heq
    have hrok : r.1 = .ok () := by
      by_cases hk : r.1 = .ok ()
      · exact hk
      · rw [heq, if_neg hk] at h; exact h
    rw [if_pos hrok] at heq
    refine ⟨y.putBoard q' a r.2, rfl, ?_, by rw [heq]; rfl, by rw [heq]; rfl, ?_⟩
    · rw [heq]; exact w.set inv rfl rfl rfl
    · intro hw sync m b hm hb
      obtain ⟨k1, _, k3, _⟩ := C28_edits_configuration wf fd reach ctx auto v h1 h2 h4 h5 hw sync m hm b hb
      exact ⟨_, Prod.ext ((k3 hlast).1.symm.trans h) rfl, k1⟩

theorem sequence_restored (wf : env.root.WF) (fd : env.root.FieldsDisjoint) {st : St} (reach : Reachable env cs st) (n cn : Str)
    (ps : List Str) (hw : Hardware) (sync : Bool) (m : Mem) (b : Board) (hm : m.main.length = env.root.footprint)
    (hb : restored env.root hw sync st m n cn = some b) :
    restored env.root hw sync ((DomOp.setElementSequence n cn ps).step env st).2 m n cn = some b :=
  C25_nothing_lost wf fd reach n cn ps hw sync m hm n cn b hb

end

end PF
