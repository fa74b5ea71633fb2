import Verif.Spec.Manager
import Verif.Lemmas.Rogue
import Verif.Lemmas.SyncExact
import Verif.Lemmas.Lookup

/-! # The manager over the domain operations -/

namespace PF
open Spec

/-! ## Syncers are collected once -/

theorem syncerSet_nodup (root : Elem) (p : Pos) : (root.syncerSet p).Nodup := sorted_nodup (syncerSet_sorted root p)

/-! ## Histories -/

theorem MOp.step_st (e : MEnv) (m : Mgr) (op : MOp) :
    (op.step e m).2.st = m.st ∨
    ∃ o : DomOp, (op.step e m).2.st = (o.step e.env m.st).2 ∧
      ((o.step e.env m.st).1 = .abort → (op.step e m).1 = .abort) ∧ (op.Regular e.env.root → o.Regular e.env.root) := by
  have run : ∀ o : DomOp, (op.Regular e.env.root → o.Regular e.env.root) → (m.run e o).2.st = m.st ∨
      ∃ o' : DomOp, (m.run e o).2.st = (o'.step e.env m.st).2 ∧
      ((o'.step e.env m.st).1 = .abort → (m.run e o).1 = .abort) ∧ (op.Regular e.env.root → o'.Regular e.env.root) :=
    fun o ho => .inr ⟨o, rfl, id, ho⟩
  have tuned : ∀ o : DomOp, (op.Regular e.env.root → o.Regular e.env.root) → (m.tuned e o).2.st = m.st ∨
      ∃ o' : DomOp, (m.tuned e o).2.st = (o'.step e.env m.st).2 ∧
      ((o'.step e.env m.st).1 = .abort → (m.tuned e o).1 = .abort) ∧ (op.Regular e.env.root → o'.Regular e.env.root) := by
    intro o ho
    unfold Mgr.tuned
    split
    · exact .inl rfl
    · exact run o ho
  have hsync : (m.sync e).2.st = m.st ∨ ∃ o' : DomOp, (m.sync e).2.st = (o'.step e.env m.st).2 ∧
      ((o'.step e.env m.st).1 = .abort → (m.sync e).1 = .abort) ∧ (op.Regular e.env.root → o'.Regular e.env.root) := by
    unfold Mgr.sync
    split
    · exact .inl rfl
    · exact run .sync (fun _ => trivial)
  cases op with
  | setTuningMode on =>
    simp only [MOp.step, Mgr.setTuningMode]
    split
    · exact .inl rfl
    · split
      · exact .inl rfl
      · split
        · have := run (.apply true) (fun _ => trivial)
          split
          · rename_i m' h; rw [h] at this; exact this
          · exact this
        · exact .inl rfl
  | setValueSpace raw => exact .inl rfl
  | setOutputRawFormat hex => exact .inl rfl
  | setAutoSync on =>
    simp only [MOp.step, Mgr.setAutoSync]
    split
    · split
      · rename_i m' h; rw [h] at hsync; exact hsync
      · exact hsync
    · exact .inl rfl
  | sync => exact hsync
  | applyConfigurations =>
    simp only [MOp.step, Mgr.applyConfigurations]
    split
    · exact run (.apply false) (fun _ => trivial)
    · exact .inl rfl
  | setElementBytes path args =>
    simp only [MOp.step, Mgr.setElementBytes]
    split
    · exact .inl rfl
    · split
      · exact .inl rfl
      · split
        · exact run _ (fun _ => trivial)
        · split
          · exact .inl rfl
          · exact .inl rfl
  | handleSet p v =>
    simp only [MOp.step, Mgr.handleSet]
    split
    · exact .inl rfl
    · split
      · exact .inl rfl
      · exact run _ (fun _ => trivial)
  | setCriterion i v => exact run _ (fun _ => trivial)
  | askResync i => exact run _ (fun _ => trivial)
  | setConfigurationParameter dom conf path text => exact run _ (fun _ => trivial)
  | renameDomain name new => exact run _ (fun _ => trivial)
  | renameConfiguration dom name new => exact run _ (fun _ => trivial)
  | setApplicationRule dom name text => exact run _ (fun _ => trivial)
  | clearApplicationRule dom name => exact run _ (fun _ => trivial)
  | handleSetBytes p bytes => exact run _ (fun _ => trivial)
  | setParameter path text => exact tuned _ (fun _ => trivial)
  | createDomain name => exact tuned _ (fun _ => trivial)
  | deleteDomain name => exact tuned _ (fun _ => trivial)
  | deleteAllDomains => exact tuned _ (fun _ => trivial)
  | setSequenceAwareness name aware => exact tuned _ (fun _ => trivial)
  | createConfiguration dom name => exact tuned _ (fun _ => trivial)
  | deleteConfiguration dom name => exact tuned _ (fun _ => trivial)
  | saveConfiguration dom name => exact tuned _ (fun _ => trivial)
  | restoreConfiguration dom name => exact tuned _ (fun _ => trivial)
  | addElement dom path => exact tuned _ (fun _ => trivial)
  | removeElement dom path => exact tuned _ (fun _ => trivial)
  | split dom path => exact tuned _ (fun _ => trivial)
  | setElementSequence dom name paths => exact tuned _ (fun _ => trivial)
  | setElementXml path doc => exact tuned _ (fun _ => trivial)
  | handleSetXml p doc => exact run _ (fun _ => trivial)
  | importDomains withSettings doc => exact tuned _ id
  | importDomain overwrite withSettings doc => exact tuned _ id

/-- The domains and settings of a manager are those of a history of domain operations. -/
theorem MReachable.reachable {e : MEnv} {cs : List Criterion} {m : Mgr} (h : MReachable e cs m) :
    Reachable e.env cs m.st := by
  induction h with
  | init hl => exact hl
  | @step m op _ hreg hn ih =>
    rcases MOp.step_st e m op with h1 | ⟨o, h1, h2, h3⟩
    · rw [h1]; exact ih
    · rw [h1]; exact ih.step (h3 hreg) (fun ha => hn (h2 ha))

/-! ## Associations -/

theorem St.Inv.attached_exists {root : Elem} {st : St} (h : st.Inv root) :
    ∀ a ∈ st.attached, ∃ f, root.at? a.1 = some f := by
  intro a ha
  obtain ⟨d, hd, _, hp⟩ := (h.att a.1 a.2).1 ha
  exact (h.good d hd).at_ a.1 hp

theorem St.Inv.inNoDomain_iff {root : Elem} {st : St} (h : st.Inv root) (p : Pos) :
    InNoDomain st p ↔ ∀ a ∈ st.attached, ¬ a.1 <+: p ∧ ¬ p <+: a.1 := by
  constructor
  · intro hn a ha
    obtain ⟨d, hd, _, hq⟩ := (h.att a.1 a.2).1 ha
    exact ⟨(hn d hd a.1 hq).2, (hn d hd a.1 hq).1⟩
  · intro ha d hd q hq
    have := ha (q, d.id) ((h.att q d.id).2 ⟨d, hd, rfl, hq⟩)
    exact ⟨this.2, this.1⟩

theorem St.Inv.isRogue_iff {root e : Elem} {st : St} (h : st.Inv root) {p : Pos} (he : root.at? p = some e) :
    root.isRogue st.attached p = true ↔ InNoDomain st p := by
  rw [PF.isRogue_iff h.attached_exists he, h.inNoDomain_iff]

/-- An element is listed when it is in no domain and every element above it is in one. -/
theorem St.Inv.rogueList_iff {root : Elem} {st : St} (h : st.Inv root) (p : Pos) :
    p ∈ root.rogueList st.attached ↔
      (∃ e, root.at? p = some e) ∧ InNoDomain st p ∧ ∀ r, r <+: p → r ≠ p → ¬ InNoDomain st r := by
  have hcl : ∀ (r : Pos) (g : Elem), root.at? r = some g →
      (Clean st.attached.noneAt r g ↔ ∀ a ∈ st.attached, ¬ r <+: a.1) := by
    intro r g hg
    constructor
    · rintro hc a ha ⟨t, ht⟩
      obtain ⟨f, hf⟩ := h.attached_exists a ha
      rw [← ht, Elem.at?_append, hg, Option.bind_some] at hf
      exact (noneAt_iff _ _).1 (hc t f hf) a ha ht.symm
    · intro hc t f _
      exact (noneAt_iff _ _).2 (fun a ha hx => hc a ha ⟨t, hx.symm⟩)
  have hpre : ∀ (r : Pos) (f : Elem), r <+: p → root.at? p = some f → ∃ g, root.at? r = some g := by
    rintro r f ⟨t, rfl⟩ hf
    rw [Elem.at?_append] at hf
    cases hr : root.at? r with
    | none => simp [hr] at hf
    | some g => exact ⟨g, rfl⟩
  unfold Elem.rogueList
  rw [aggregate_mem]
  simp only [List.nil_append]
  constructor
  · rintro ⟨r, f, rfl, hf, hc, hmin⟩
    have hin : InNoDomain st p := by
      rw [h.inNoDomain_iff]
      intro a ha
      refine ⟨?_, (hcl p f hf).1 hc a ha⟩
      intro hx
      by_cases hap : a.1 = p
      · exact (hcl p f hf).1 hc a ha (by simp [hap])
      · obtain ⟨g, hg⟩ := hpre a.1 f hx hf
        exact (noneAt_iff _ _).1 (hmin a.1 g hx hap hg).1 a ha rfl
    refine ⟨⟨f, hf⟩, hin, ?_⟩
    intro r hr hne hn
    obtain ⟨g, hg⟩ := hpre r f hr hf
    exact (hmin r g hr hne hg).2 ((hcl r g hg).2 (fun a ha => ((h.inNoDomain_iff r).1 hn a ha).2))
  · rintro ⟨⟨f, hf⟩, hin, hmin⟩
    rw [h.inNoDomain_iff] at hin
    refine ⟨p, f, rfl, hf, (hcl p f hf).2 (fun a ha => (hin a ha).2), ?_⟩
    intro r g hr hne hg
    refine ⟨(noneAt_iff _ _).2 (fun a ha hx => (hin a ha).1 (hx ▸ hr)), ?_⟩
    intro hc
    refine hmin r hr hne ((h.inNoDomain_iff r).2 ?_)
    intro a ha
    exact ⟨fun hx => (hin a ha).1 (hx.trans hr), (hcl r g hg).1 hc a ha⟩

/-- The shortest prefix with a property. -/
theorem shortest_prefix (P : Pos → Prop) (p : Pos) (h : P p) : ∃ q, q <+: p ∧ P q ∧ ∀ r, r <+: q → r ≠ q → ¬ P r := by
  have key : ∀ n (p : Pos), p.length ≤ n → P p → ∃ q, q <+: p ∧ P q ∧ ∀ r, r <+: q → r ≠ q → ¬ P r := by
    intro n
    induction n with
    | zero =>
      intro p hp hP
      have : p = [] := List.length_eq_zero_iff.1 (by omega)
      subst this
      exact ⟨[], List.prefix_refl _, hP, fun r hr hne => absurd (List.prefix_nil.1 hr) hne⟩
    | succ n ih =>
      intro p hp hP
      by_cases hex : ∃ r, r <+: p ∧ r ≠ p ∧ P r
      · obtain ⟨r, hr, hne, hPr⟩ := hex
        have hl : r.length < p.length := by
          have := hr.length_le
          rcases Nat.lt_or_ge r.length p.length with h1 | h1
          · exact h1
          · exact absurd (hr.eq_of_length_le h1) hne
        obtain ⟨q, hq, h1, h2⟩ := ih r (by omega) hPr
        exact ⟨q, hq.trans hr, h1, h2⟩
      · exact ⟨p, List.prefix_refl _, hP, fun r hr hne hP => hex ⟨r, hr, hne, hP⟩⟩
  exact key _ p (Nat.le_refl _) h

/-! ## What changes the calls of syncers -/

theorem St.onDomain_mem (st : St) (name : Str) (f : Domain → Out (Domain × Attached)) :
    (st.onDomain name f).2.mem = st.mem := by
  unfold St.onDomain
  split
  · rfl
  · split <;> rfl

theorem St.onConfig_mem (st : St) (dom name : Str) (f : Config → Out Unit × Config) :
    (st.onConfig dom name f).2.mem = st.mem := by
  unfold St.onConfig
  split
  · rfl
  · split <;> rfl

theorem Env.syncParam_off (env : Env) (p : Pos) (m : Mem) : env.syncParam false p m = (.ok (), m) := by
  simp [Env.syncParam]

theorem Env.setMain_off (env : Env) (ctx : Ctx) (path text : Str) (m : Mem) :
    (env.setMain ctx false path text m).2.log = m.log := by
  unfold Env.setMain
  split
  · rw [Env.syncParam_off]
  · rfl

theorem Env.setMainBytes_off (env : Env) (p : Pos) (bs : List Byte) (m : Mem) :
    (env.setMainBytes false p bs m).2.log = m.log := by
  unfold Env.setMainBytes
  split <;> rfl

theorem restoreAreas_off {root : Elem} {hw : Hardware} {syncOf : Pos → Option SyncerSet} {as : List Area} {m m' : Mem}
    {errs : List Str} (h : restoreAreas root hw syncOf false as m = some (m', errs)) : m'.log = m.log := by
  induction as generalizing m m' errs with
  | nil => simp only [restoreAreas, Option.some.injEq, Prod.mk.injEq] at h; rw [h.1]
  | cons a as ih =>
    simp only [restoreAreas] at h
    split at h
    · simp at h
    · simp only [Bool.false_eq_true, ↓reduceIte] at h
      have := ih h
      exact this

/-- The operations that call no syncer. -/
def DomOp.Quiet : DomOp → Prop
  | .restoreConfiguration a .. => a = false
  | .setConfigurationParameter _ a .. => a = false
  | .setParameter _ a .. => a = false
  | .setElementBytes a .. => a = false
  | .handleBytes a .. => a = false
  | .setElementXml _ a .. => a = false
  | .handleXml _ a .. => a = false
  | .handleSet .. => False
  | .sync => False
  | .apply _ => False
  | _ => True

theorem St.restoreConfiguration_off (root : Elem) (hw : Hardware) (dom name : Str) (st : St) :
    (st.restoreConfiguration root hw false dom name).2.mem.log = st.mem.log := by
  unfold St.restoreConfiguration
  split
  · rfl
  · rename_i d _
    split
    · rename_i d' m errs h
      unfold Domain.restoreConfig at h
      split at h
      · simp at h
      · simp only [Bool.false_and] at h
        split at h
        · simp at h
        · rename_i m' errs' hr
          simp only [Bool.false_eq_true, ↓reduceIte, Out.ok.injEq, Prod.mk.injEq] at h
          obtain ⟨_, rfl, _⟩ := h
          exact restoreAreas_off hr
    · rfl
    · rfl

theorem St.setConfigParam_off (env : Env) (ctx : Ctx) (dom conf path text : Str) (st : St) :
    (st.setConfigParam env ctx false dom conf path text).2.mem.log = st.mem.log := by
  unfold St.setConfigParam
  dsimp only
  split
  · rfl
  · split
    · split
      · split
        · exact Env.setMain_off env ctx path text st.mem
        · rfl
      · rfl
    · rfl

theorem St.atPath_log (root : Elem) (path : Str) (st : St) (f : Pos → St → Out Unit × St)
    (hf : ∀ p, (f p st).2.mem.log = st.mem.log) : (st.atPath root path f).2.mem.log = st.mem.log := by
  unfold St.atPath
  split
  · rfl
  · exact hf _

theorem DomOp.step_log (env : Env) (st : St) (op : DomOp) (hq : op.Quiet) :
    (op.step env st).2.mem.log = st.mem.log := by
  cases op with
  | createDomain name => simp only [DomOp.step, St.createDomain]; split <;> rfl
  | deleteDomain name => simp only [DomOp.step, St.deleteDomain]; split <;> rfl
  | deleteAllDomains => rfl
  | renameDomain name new =>
    simp only [DomOp.step, St.renameDomain]
    split
    · rfl
    · split <;> rfl
  | setSequenceAwareness name aware => exact congrArg Mem.log (St.onDomain_mem _ _ _)
  | createConfiguration dom name =>
    simp only [DomOp.step, St.createConfiguration]
    split
    · rfl
    · split <;> rfl
  | deleteConfiguration dom name => exact congrArg Mem.log (St.onDomain_mem _ _ _)
  | renameConfiguration dom name new => exact congrArg Mem.log (St.onDomain_mem _ _ _)
  | saveConfiguration dom name => exact congrArg Mem.log (St.onDomain_mem _ _ _)
  | restoreConfiguration a dom name =>
    simp only [DomOp.Quiet] at hq
    subst hq
    exact St.restoreConfiguration_off _ _ _ _ _
  | addElement dom path => exact St.atPath_log _ _ _ _ (fun p => congrArg Mem.log (St.onDomain_mem _ _ _))
  | removeElement dom path => exact St.atPath_log _ _ _ _ (fun p => congrArg Mem.log (St.onDomain_mem _ _ _))
  | split dom path =>
    refine St.atPath_log _ _ _ _ (fun p => ?_)
    unfold St.split
    split
    · rfl
    · split <;> rfl
  | setElementSequence dom name paths => exact congrArg Mem.log (St.onConfig_mem _ _ _ _)
  | setApplicationRule dom name text => exact congrArg Mem.log (St.onConfig_mem _ _ _ _)
  | clearApplicationRule dom name => exact congrArg Mem.log (St.onConfig_mem _ _ _ _)
  | setConfigurationParameter ctx a dom conf path text =>
    simp only [DomOp.Quiet] at hq
    subst hq
    exact St.setConfigParam_off _ _ _ _ _ _ _
  | setParameter ctx a path text =>
    simp only [DomOp.Quiet] at hq
    subst hq
    exact Env.setMain_off _ _ _ _ _
  | setElementBytes a path bytes =>
    simp only [DomOp.Quiet] at hq
    subst hq
    exact St.atPath_log _ _ _ _ (fun p => Env.setMainBytes_off _ _ _ _)
  | handleSet p v => exact absurd hq id
  | handleBytes a p bytes =>
    simp only [DomOp.Quiet] at hq
    subst hq
    simp only [DomOp.step]
    split
    · rfl
    · exact Env.setMainBytes_off _ _ _ _
  | setElementXml ctx a path doc =>
    simp only [DomOp.Quiet] at hq
    subst hq
    exact St.atPath_log _ _ _ _ (fun p => Env.setMainXml_off _ _ _ _ _)
  | handleXml ctx a p doc =>
    simp only [DomOp.Quiet] at hq
    subst hq
    simp only [DomOp.step]
    split
    · rfl
    · exact Env.setMainXml_off _ _ _ _ _
  | importDomains withSettings doc => exact congrArg Mem.log (St.importDomains_mem _ _ _ _ _)
  | importDomain overwrite withSettings doc => exact congrArg Mem.log (St.importDomain_mem _ _ _ _ _ _)
  | sync => exact absurd hq id
  | setCriterion i v => rfl
  | askResync i => rfl
  | apply force => exact absurd hq id

theorem Mgr.run_log (e : MEnv) (m : Mgr) (op : DomOp) (hq : op.Quiet) :
    (m.run e op).2.st.mem.log = m.st.mem.log := DomOp.step_log e.env m.st op hq

theorem Mgr.tuned_log (e : MEnv) (m : Mgr) (op : DomOp) (hq : op.Quiet) :
    (m.tuned e op).2.st.mem.log = m.st.mem.log := by
  unfold Mgr.tuned
  split
  · rfl
  · exact m.run_log e op hq

/-! ## Typed sets -/

theorem HVal.inputSize_atoms (v : HVal) : v.inputSize = match v with | .one _ => 0 | v => v.atoms.length := by
  cases v <;> simp [HVal.inputSize, HVal.atoms]

/-- What `checkSetValidity` lets through. -/
theorem setValid_iff {root e : Elem} {att : Attached} {p : Pos} {v : HVal} (he : root.at? p = some e) :
    root.setValid att p v = true ↔ e.kind.isParameter = true ∧ root.isRogue att p = true ∧
      v.inputSize = e.kind.arrayLength := by
  unfold Elem.setValid EKind.getValid
  rw [he]
  simp only [Bool.and_eq_true, Bool.or_eq_true, beq_iff_eq]
  constructor
  · rintro ⟨⟨⟨h1, h2⟩, h3⟩, h4⟩
    refine ⟨h1, h3, ?_⟩
    rcases h4 with h4 | h4
    · rw [h4] at h2
      simp only [ne_eq, not_true_eq_false, decide_false] at h2
      have := of_decide_eq_false h2.symm
      omega
    · exact h4
  · rintro ⟨h1, h3, h4⟩
    refine ⟨⟨⟨h1, ?_⟩, h3⟩, .inr h4⟩
    rw [h4]

/-- A typed set whose argument passes the check of the length and does not have the form the parameter
takes changes nothing. -/
theorem setParamVal_wrong (rd : Reader) {k : EKind} (hk : k.isParameter = true) (b : Board) (off : Nat) {v : HVal}
    (hl : v.inputSize = k.arrayLength) (hv : ¬ RightForm k v) :
    (setParamVal rd k b off v).1 ≠ .ok () ∧ (setParamVal rd k b off v).2 = b := by
  cases k with
  | group g => simp [EKind.isParameter] at hk
  | bitBlock g => simp [EKind.isParameter] at hk
  | array t =>
    cases v with
    | one a => simp [setParamVal, setParamAtom]
    | _ => exact absurd (by simpa [RightForm, HVal.inputSize, HVal.atoms, EKind.arrayLength] using hl) hv
  | scalar t => cases v <;> simp_all [setParamVal, RightForm]
  | string n => cases v <;> simp_all [setParamVal, RightForm]
  | bit t => cases v <;> simp_all [setParamVal, RightForm]

theorem Env.setMainVal_log (env : Env) (p : Pos) (v : HVal) (m : Mem) :
    (env.setMainVal p v m).2.log = m.log ∨
    ∃ x, env.root.getSyncer none p = some x ∧
      (env.setMainVal p v m).2.log = m.log ++ [⟨x, (env.setMainVal p v m).2.main⟩] := by
  unfold Env.setMainVal
  split
  · split
    · unfold Env.syncParam
      simp only [Bool.not_true, Bool.false_eq_true, ↓reduceIte]
      split
      · exact .inl rfl
      · rename_i x hx; exact .inr ⟨x, hx, rfl⟩
    · exact .inl rfl
  · exact .inl rfl

end PF
