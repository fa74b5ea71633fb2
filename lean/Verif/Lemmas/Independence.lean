import Verif.Model.Manager
import Verif.Spec.Resync

/-! # The values do not depend on the synchronisation -/

namespace PF

/-- The state without what was sent to the hardware and without the requests for a resynchronisation. -/
def St.quiet (st : St) : St := { st with mem := ⟨st.mem.main, []⟩, asked := [] }

/-- A hardware that never fails. -/
def Env.quiet (env : Env) : Env := { env with hw := fun _ _ _ => none }

/-- The operation without automatic synchronisation. -/
def DomOp.quiet : DomOp → DomOp
  | .restoreConfiguration _ dom name => .restoreConfiguration false dom name
  | .setConfigurationParameter ctx _ dom conf path text => .setConfigurationParameter ctx false dom conf path text
  | .setParameter ctx _ path text => .setParameter ctx false path text
  | .setElementBytes _ path bytes => .setElementBytes false path bytes
  | .handleBytes _ p bytes => .handleBytes false p bytes
  | .setElementXml ctx _ path doc => .setElementXml ctx false path doc
  | .handleXml ctx _ p doc => .handleXml ctx false p doc
  | op => op

theorem St.quiet_findDomain (st : St) (name : Str) : st.quiet.findDomain name = st.findDomain name := rfl
theorem St.quiet_domains (st : St) : st.quiet.domains = st.domains := rfl
theorem St.quiet_criteria (st : St) : st.quiet.criteria = st.criteria := rfl
theorem St.quiet_attached (st : St) : st.quiet.attached = st.attached := rfl
theorem St.quiet_nextId (st : St) : st.quiet.nextId = st.nextId := rfl
theorem St.quiet_main (st : St) : st.quiet.mem.main = st.mem.main := rfl

theorem restoreAreas_main {root : Elem} {hw hw' : Hardware} {so : Pos → Option SyncerSet} {b b' : Bool} {as : List Area}
    (hb : b' = true → b = true) :
    ∀ {m m' m1 : Mem} {er : List Str}, m.main = m'.main → restoreAreas root hw so b as m = some (m1, er) →
      ∃ m2 er2, restoreAreas root hw' so b' as m' = some (m2, er2) ∧ m2.main = m1.main := by
  induction as with
  | nil =>
    intro m m' m1 er hm h
    simp only [restoreAreas, Option.some.injEq, Prod.mk.injEq] at h
    obtain ⟨rfl, rfl⟩ := h
    exact ⟨m', [], rfl, hm.symm⟩
  | cons a as ih =>
    intro m m' m1 er hm h
    simp only [restoreAreas] at h ⊢
    rw [← hm]
    cases hr : a.restore root m.main with
    | none => simp [hr] at h
    | some main =>
      simp only [hr] at h ⊢
      cases b' with
      | false =>
        simp only [Bool.false_eq_true, if_false] at h ⊢
        split at h
        · split at h
          · simp at h
          · split at h
            · simp at h
            · rename_i m3 er3 h3
              simp only [Option.some.injEq, Prod.mk.injEq] at h
              obtain ⟨rfl, _⟩ := h
              exact ih (m' := ⟨main, m'.log⟩) (by rfl) h3
        · exact ih (m' := ⟨main, m'.log⟩) (by rfl) h
      | true =>
        simp only [hb rfl, if_true] at h ⊢
        cases hs : so a.elem with
        | none => simp [hs] at h
        | some ss =>
          simp only [hs] at h ⊢
          split at h
          · simp at h
          · rename_i m3 er3 h3
            simp only [Option.some.injEq, Prod.mk.injEq] at h
            obtain ⟨rfl, _⟩ := h
            rw [hb rfl] at ih
            obtain ⟨m2, er2, h1, h2⟩ := ih (m' := ⟨main, (syncAll hw' main ss m'.log).1⟩) (by rfl) h3
            exact ⟨m2, _, by rw [h1], h2⟩

theorem Domain.apply_main {root : Elem} {hw hw' : Hardware} {cs : List Criterion} {force : Bool} {d d1 : Domain}
    {m m' m1 : Mem} {ss ss' ss1 : Option SyncerSet} (hm : m.main = m'.main) (hs : ss.isNone = ss'.isNone)
    (h : d.apply root hw cs force m ss = some (d1, m1, ss1)) :
    ∃ m2 ss2, d.apply root hw' cs force m' ss' = some (d1, m2, ss2) ∧ m2.main = m1.main ∧ ss2.isNone = ss1.isNone := by
  have key : ∀ (d0 : Domain),
      (match findApplicable cs d0.configs with
        | none => none
        | some none => some (d0, m, ss)
        | some (some c) =>
          if d0.last = some c.id then some (d0, m, ss)
          else
            match restoreAreas root hw d0.syncOf (ss.isNone && d0.seqAware) c.areas m with
            | none => none
            | some (m', _) =>
              some ({ d0 with last := some c.id }, m',
                ss.map fun x => if !d0.seqAware then x.union d0.syncSet else x)) = some (d1, m1, ss1) →
      ∃ m2 ss2, (match findApplicable cs d0.configs with
        | none => none
        | some none => some (d0, m', ss')
        | some (some c) =>
          if d0.last = some c.id then some (d0, m', ss')
          else
            match restoreAreas root hw' d0.syncOf (ss'.isNone && d0.seqAware) c.areas m' with
            | none => none
            | some (m', _) =>
              some ({ d0 with last := some c.id }, m',
                ss'.map fun x => if !d0.seqAware then x.union d0.syncSet else x)) = some (d1, m2, ss2) ∧
        m2.main = m1.main ∧ ss2.isNone = ss1.isNone := by
    intro d0 h
    cases hf : findApplicable cs d0.configs with
    | none => simp [hf] at h
    | some oc =>
      cases oc with
      | none =>
        simp only [hf, Option.some.injEq, Prod.mk.injEq] at h
        obtain ⟨rfl, rfl, rfl⟩ := h
        exact ⟨m', ss', rfl, hm.symm, hs.symm⟩
      | some c =>
        simp only [hf] at h ⊢
        by_cases hl : d0.last = some c.id
        · rw [if_pos hl] at h ⊢
          simp only [Option.some.injEq, Prod.mk.injEq] at h
          obtain ⟨rfl, rfl, rfl⟩ := h
          exact ⟨m', ss', rfl, hm.symm, hs.symm⟩
        · rw [if_neg hl] at h ⊢
          cases h3 : restoreAreas root hw d0.syncOf (ss.isNone && d0.seqAware) c.areas m with
          | none => rw [h3] at h; simp at h
          | some r =>
            rw [h3] at h
            obtain ⟨m3, er3⟩ := r
            simp only [Option.some.injEq, Prod.mk.injEq] at h
            obtain ⟨rfl, rfl, rfl⟩ := h
            obtain ⟨m2, er2, h1, h2⟩ := restoreAreas_main (hw' := hw') (fun hx => hx) hm h3
            rw [← hs, h1]
            exact ⟨m2, _, rfl, h2, by simp [hs]⟩
  unfold Domain.apply at h ⊢
  rw [← hs]
  split at h
  · simp only [Option.some.injEq, Prod.mk.injEq] at h
    obtain ⟨rfl, rfl, rfl⟩ := h
    rw [if_pos (by assumption)]
    exact ⟨m', ss', rfl, hm.symm, hs.symm⟩
  · rw [if_neg (by assumption), hs]
    exact key _ h

theorem applyFirst_main {root : Elem} {hw hw' : Hardware} {cs : List Criterion} {force : Bool} {ds : List Domain} :
    ∀ {m m' m1 : Mem} {ss ss' ss1 : SyncerSet} {ds1 : List Domain}, m.main = m'.main →
      applyFirst root hw cs force ds m ss = some (ds1, m1, ss1) →
      ∃ m2 ss2, applyFirst root hw' cs force ds m' ss' = some (ds1, m2, ss2) ∧ m2.main = m1.main := by
  induction ds with
  | nil =>
    intro m m' m1 ss ss' ss1 ds1 hm h
    simp only [applyFirst, Option.some.injEq, Prod.mk.injEq] at h
    obtain ⟨rfl, rfl, rfl⟩ := h
    exact ⟨m', ss', rfl, hm.symm⟩
  | cons d ds ih =>
    intro m m' m1 ss ss' ss1 ds1 hm h
    simp only [applyFirst] at h ⊢
    split at h
    · simp at h
    · rename_i d' m3 ss3 h3
      obtain ⟨m4, ss4, h4, h5, _⟩ := Domain.apply_main (hw' := hw') (ss' := some ss') hm (by rfl) h3
      rw [h4]
      split at h
      · simp at h
      · rename_i ds' m5 ss5 h6
        simp only [Option.some.injEq, Prod.mk.injEq] at h
        obtain ⟨rfl, rfl, rfl⟩ := h
        obtain ⟨m6, ss6, h7, h8⟩ := ih (m' := m4) (ss' := ss4.getD ss') h5.symm h6
        simp only [h7]
        exact ⟨m6, ss6, rfl, h8⟩

theorem applySecond_main {root : Elem} {hw hw' : Hardware} {cs : List Criterion} {force : Bool} {ds : List Domain} :
    ∀ {m m' m1 : Mem} {ds1 : List Domain}, m.main = m'.main →
      applySecond root hw cs force ds m = some (ds1, m1) →
      ∃ m2, applySecond root hw' cs force ds m' = some (ds1, m2) ∧ m2.main = m1.main := by
  induction ds with
  | nil =>
    intro m m' m1 ds1 hm h
    simp only [applySecond, Option.some.injEq, Prod.mk.injEq] at h
    obtain ⟨rfl, rfl⟩ := h
    exact ⟨m', rfl, hm.symm⟩
  | cons d ds ih =>
    intro m m' m1 ds1 hm h
    simp only [applySecond] at h ⊢
    split at h
    · simp at h
    · rename_i d' m3 ss3 h3
      obtain ⟨m4, ss4, h4, h5, _⟩ := Domain.apply_main (hw' := hw') (ss' := none) hm (by rfl) h3
      rw [h4]
      split at h
      · simp at h
      · rename_i ds' m5 h6
        simp only [Option.some.injEq, Prod.mk.injEq] at h
        obtain ⟨rfl, rfl⟩ := h
        obtain ⟨m6, h7, h8⟩ := ih (m' := m4) h5.symm h6
        simp only [h7]
        exact ⟨m6, rfl, h8⟩

theorem applyDomains_main {root : Elem} {hw hw' : Hardware} {cs : List Criterion} {force : Bool} {ss ss' : SyncerSet}
    {ds ds1 : List Domain} {m m' m1 : Mem} (hm : m.main = m'.main) (h : applyDomains root hw cs force ss ds m = some (ds1, m1)) :
    ∃ m2, applyDomains root hw' cs force ss' ds m' = some (ds1, m2) ∧ m2.main = m1.main := by
  simp only [applyDomains] at h ⊢
  split at h
  · simp at h
  · rename_i ds2 m2 ss2 h2
    obtain ⟨m3, ss3, h3, h4⟩ := applyFirst_main (hw' := hw') (ss' := ss') hm h2
    simp only [h3]
    exact applySecond_main (m' := ⟨m3.main, (syncAll hw' m3.main ss3 m3.log).1⟩) (by exact h4.symm) h

theorem St.apply_quiet (root : Elem) (hw : Hardware) (force : Bool) (st : St) (h : (st.apply root hw force).1 ≠ .abort) :
    (st.apply root hw force).1 = .ok () ∧ (st.quiet.apply root (fun _ _ _ => none) force).1 = .ok () ∧
    (st.quiet.apply root (fun _ _ _ => none) force).2.quiet = (st.apply root hw force).2.quiet := by
  simp only [St.apply] at h ⊢
  split at h
  · simp at h
  · rename_i ds m h1
    obtain ⟨m2, h2, h3⟩ := applyDomains_main (hw' := fun _ _ _ => none) (ss' := root.resyncSet st.quiet.asked)
      (m' := st.quiet.mem) (by rfl) h1
    simp only [St.quiet_criteria, St.quiet_domains, h2]
    exact ⟨trivial, trivial, by simp [St.quiet, h3]⟩

/-! ## Sets in the main blackboard -/

theorem Env.syncParam_main (env : Env) (a : Bool) (p : Pos) (m : Mem) : (env.syncParam a p m).2.main = m.main := by
  unfold Env.syncParam
  repeat' split
  all_goals rfl

theorem Env.syncParam_abort (env : Env) (a : Bool) (p : Pos) (m : Mem) : (env.syncParam a p m).1 ≠ .abort := by
  unfold Env.syncParam
  repeat' split
  all_goals simp

theorem Env.setMain_main (env : Env) (ctx : Ctx) (a : Bool) (path text : Str) (m : Mem) :
    (env.setMain ctx a path text m).2.main = (Elem.setText env.rd ctx env.root 0 m.main path text).2 := by
  unfold Env.setMain
  split
  · rename_i b p _ h _; rw [Env.syncParam_main, h]
  · rename_i o b x h _; rw [h]

theorem Env.setMain_aborts (env : Env) (ctx : Ctx) (a : Bool) (path text : Str) (m : Mem) :
    (env.setMain ctx a path text m).1 = .abort ↔ (Elem.setText env.rd ctx env.root 0 m.main path text).1 = .abort := by
  unfold Env.setMain
  split
  · rename_i b p _ h _; rw [h]; simp [Env.syncParam_abort]
  · rename_i o b x h _; rw [h]

theorem Env.setMainBytes_quiet (env : Env) (a : Bool) (p : Pos) (bs : List Byte) (m m' : Mem) (hm : m.main = m'.main) :
    (env.quiet.setMainBytes false p bs m').2.main = (env.setMainBytes a p bs m).2.main ∧
    ((env.quiet.setMainBytes false p bs m').1 = .abort ↔ (env.setMainBytes a p bs m).1 = .abort) := by
  have e : env.quiet.root = env.root := rfl
  simp only [Env.setMainBytes, ← hm, e]
  repeat' split
  all_goals simp_all

theorem Env.setMainXml_quiet (env : Env) (ctx : Ctx) (a : Bool) (p : Pos) (x : XElem) (m m' : Mem) (hm : m.main = m'.main) :
    (env.quiet.setMainXml ctx false p x m').2.main = (env.setMainXml ctx a p x m).2.main ∧
    ((env.quiet.setMainXml ctx false p x m').1 = .abort ↔ (env.setMainXml ctx a p x m).1 = .abort) := by
  have e : env.quiet.root = env.root := rfl
  have e2 : env.quiet.rd = env.rd := rfl
  simp only [Env.setMainXml, ← hm, e, e2]
  repeat' split
  all_goals simp_all

theorem Env.setMainVal_quiet (env : Env) (p : Pos) (v : HVal) (m m' : Mem) (hm : m.main = m'.main) :
    (env.quiet.setMainVal p v m').2.main = (env.setMainVal p v m).2.main ∧
    ((env.quiet.setMainVal p v m').1 = .abort ↔ (env.setMainVal p v m).1 = .abort) := by
  have e : env.quiet.root = env.root := rfl
  have e2 : env.quiet.rd = env.rd := rfl
  simp only [Env.setMainVal, ← hm, e, e2]
  split
  · split
    · simp [Env.syncParam_main, Env.syncParam_abort]
    · simp
  · simp [hm]

theorem errorsOut_eq_abort (o : Out (List Str)) : errorsOut o = .abort ↔ o = .abort := by
  unfold errorsOut
  split <;> simp

/-! ## One operation -/

theorem St.onDomain_quiet (st : St) (name : Str) (f : Domain → Out (Domain × Attached)) :
    (st.quiet.onDomain name f).1 = (st.onDomain name f).1 ∧
    (st.quiet.onDomain name f).2.quiet = (st.onDomain name f).2.quiet := by
  simp only [St.onDomain, St.quiet_findDomain]
  repeat' split
  all_goals exact ⟨rfl, rfl⟩

theorem St.onConfig_quiet (st : St) (dom name : Str) (f : Config → Out Unit × Config) :
    (st.quiet.onConfig dom name f).1 = (st.onConfig dom name f).1 ∧
    (st.quiet.onConfig dom name f).2.quiet = (st.onConfig dom name f).2.quiet := by
  simp only [St.onConfig, St.quiet_findDomain]
  repeat' split
  all_goals exact ⟨rfl, rfl⟩

theorem Domain.restoreConfig_quiet {root : Elem} {hw hw' : Hardware} {a : Bool} {name : Str} {d : Domain} {m m' : Mem}
    (hm : m.main = m'.main) (h : d.restoreConfig root hw a name m ≠ .abort) :
    (d.restoreConfig root hw a name m = .err ∧ d.restoreConfig root hw' false name m' = .err) ∨
    ∃ d1 m1 er1 m2 er2, d.restoreConfig root hw a name m = .ok (d1, m1, er1) ∧
      d.restoreConfig root hw' false name m' = .ok (d1, m2, er2) ∧ m2.main = m1.main := by
  unfold Domain.restoreConfig at h ⊢
  cases hc : d.findConfig name with
  | none => exact .inl ⟨rfl, rfl⟩
  | some c =>
    simp only [hc] at h ⊢
    cases hr : restoreAreas root hw d.syncOf (a && d.seqAware) c.areas m with
    | none => simp [hr] at h
    | some r =>
      obtain ⟨m1, er⟩ := r
      obtain ⟨m2, er2, h1, h2⟩ := restoreAreas_main (hw' := hw') (b' := false && d.seqAware) (m' := m') (by simp) hm hr
      rw [h1]
      refine .inr ?_
      dsimp only
      by_cases hx : (a && !d.seqAware) = true
      · rw [if_pos hx]
        exact ⟨_, _, _, _, _, rfl, rfl, h2⟩
      · rw [if_neg hx]
        exact ⟨_, _, _, _, _, rfl, rfl, h2⟩

theorem St.restoreConfiguration_quiet (env : Env) (a : Bool) (dom name : Str) (st : St)
    (h : (st.restoreConfiguration env.root env.hw a dom name).1 ≠ .abort) :
    (st.quiet.restoreConfiguration env.root (fun _ _ _ => none) false dom name).1 ≠ .abort ∧
    (st.quiet.restoreConfiguration env.root (fun _ _ _ => none) false dom name).2.quiet =
      (st.restoreConfiguration env.root env.hw a dom name).2.quiet := by
  unfold St.restoreConfiguration at h ⊢
  rw [St.quiet_findDomain]
  cases hd : st.findDomain dom with
  | none => exact ⟨by simp, rfl⟩
  | some d =>
    simp only [hd] at h ⊢
    have hna : d.restoreConfig env.root env.hw a name st.mem ≠ .abort := by
      intro hx; simp [hx] at h
    rcases Domain.restoreConfig_quiet (m := st.mem) (m' := st.quiet.mem) (hw' := fun _ _ _ => none) rfl hna with
      ⟨h1, h2⟩ | ⟨d1, m1, er1, m2, er2, h1, h2, h3⟩
    · rw [h1, h2]; exact ⟨by simp, rfl⟩
    · rw [h1, h2]
      refine ⟨by simp, ?_⟩
      simp only [St.quiet, St.setDomain, h3]

theorem St.setConfigParam_quiet (env : Env) (ctx : Ctx) (a : Bool) (dom conf path text : Str) (st : St) :
    ((st.quiet.setConfigParam env.quiet ctx false dom conf path text).1 = .abort ↔
      (st.setConfigParam env ctx a dom conf path text).1 = .abort) ∧
    (st.quiet.setConfigParam env.quiet ctx false dom conf path text).2.quiet =
      (st.setConfigParam env ctx a dom conf path text).2.quiet := by
  have e : env.quiet.root = env.root := rfl
  have e2 : env.quiet.rd = env.rd := rfl
  have e3 : st.quiet.findBlackboard env.root dom conf path = st.findBlackboard env.root dom conf path := rfl
  simp only [St.setConfigParam, e, e2, e3]
  split
  · exact ⟨Iff.rfl, rfl⟩
  · split
    · split
      · split
        · refine ⟨by rw [Env.setMain_aborts, Env.setMain_aborts]; rfl, ?_⟩
          have h1 := Env.setMain_main env ctx a path text st.mem
          have h2 := Env.setMain_main env.quiet ctx false path text st.quiet.mem
          simp only [St.quiet, St.setDomain] at h1 h2 ⊢
          simp only [h1, h2, e, e2]
        · exact ⟨Iff.rfl, rfl⟩
      · exact ⟨Iff.rfl, rfl⟩
    · exact ⟨Iff.rfl, rfl⟩

/-- An operation does to the values what it does without synchronisation, on a hardware that never fails. -/
theorem DomOp.step_quiet (env : Env) (st : St) (op : DomOp) (h : (op.step env st).1 ≠ .abort) :
    (op.quiet.step env.quiet st.quiet).1 ≠ .abort ∧
    (op.quiet.step env.quiet st.quiet).2.quiet = (op.step env st).2.quiet := by
  have eqs : ∀ (r r' : Out Unit × St), r'.1 ≠ .abort → r.1 = r'.1 ∧ r.2.quiet = r'.2.quiet →
      r.1 ≠ .abort ∧ r.2.quiet = r'.2.quiet := fun r r' h1 h2 => ⟨by rw [h2.1]; exact h1, h2.2⟩
  have e : env.quiet.root = env.root := rfl
  have e2 : env.quiet.rd = env.rd := rfl
  cases op with
  | apply force =>
    obtain ⟨_, h2, h3⟩ := St.apply_quiet env.root env.hw force st h
    exact ⟨by show (st.quiet.apply env.root (fun _ _ _ => none) force).1 ≠ _; rw [h2]; simp, h3⟩
  | restoreConfiguration a dom name =>
    simp only [DomOp.step, DomOp.quiet, ne_eq, errorsOut_eq_abort] at h ⊢
    exact St.restoreConfiguration_quiet env a dom name st h
  | setConfigurationParameter ctx a dom conf path text =>
    have := St.setConfigParam_quiet env ctx a dom conf path text st
    exact ⟨fun hx => h (this.1.1 hx), this.2⟩
  | setParameter ctx a path text =>
    simp only [DomOp.step, DomOp.quiet, ne_eq] at h ⊢
    rw [Env.setMain_aborts] at h ⊢
    refine ⟨h, ?_⟩
    simp only [St.quiet, Env.setMain_main, e, e2]
  | setElementBytes a path bytes =>
    simp only [DomOp.step, DomOp.quiet, St.atPath, e] at h ⊢
    split
    · exact ⟨by simp, rfl⟩
    · rename_i p hp
      have := env.setMainBytes_quiet a p bytes st.mem st.quiet.mem rfl
      simp only [hp, ne_eq, errorsOut_eq_abort] at h ⊢
      refine ⟨fun hx => h (this.2.1 hx), ?_⟩
      simp only [St.quiet] at this ⊢
      simp only [this.1]
  | handleSet p v =>
    have := env.setMainVal_quiet p v st.mem st.quiet.mem rfl
    refine ⟨fun hx => h (this.2.1 hx), ?_⟩
    simp only [DomOp.step, DomOp.quiet, St.quiet] at this ⊢
    simp only [this.1]
  | handleBytes a p bytes =>
    simp only [DomOp.step, DomOp.quiet, e] at h ⊢
    split
    · exact ⟨by simp, rfl⟩
    · rename_i hp
      have := env.setMainBytes_quiet a p bytes st.mem st.quiet.mem rfl
      simp only [hp, ne_eq, errorsOut_eq_abort] at h ⊢
      refine ⟨fun hx => h (this.2.1 hx), ?_⟩
      simp only [St.quiet] at this ⊢
      simp only [this.1]
  | setElementXml ctx a path doc =>
    simp only [DomOp.step, DomOp.quiet, St.atPath, e] at h ⊢
    split
    · exact ⟨by simp, rfl⟩
    · rename_i p hp
      have := env.setMainXml_quiet ctx a p doc st.mem st.quiet.mem rfl
      simp only [hp, ne_eq, errorsOut_eq_abort] at h ⊢
      refine ⟨fun hx => h (this.2.1 hx), ?_⟩
      simp only [St.quiet] at this ⊢
      simp only [this.1]
  | handleXml ctx a p doc =>
    simp only [DomOp.step, DomOp.quiet, e] at h ⊢
    split
    · exact ⟨by simp, rfl⟩
    · rename_i hp
      have := env.setMainXml_quiet ctx a p doc st.mem st.quiet.mem rfl
      simp only [hp, ne_eq, errorsOut_eq_abort] at h ⊢
      refine ⟨fun hx => h (this.2.1 hx), ?_⟩
      simp only [St.quiet] at this ⊢
      simp only [this.1]
  | sync =>
    refine ⟨?_, rfl⟩
    simp only [DomOp.step, DomOp.quiet, ne_eq, errorsOut_eq_abort, Env.syncSystem]
    simp
  | setCriterion i v => exact ⟨by simp [DomOp.step, DomOp.quiet, St.setCriterion], rfl⟩
  | askResync i => exact ⟨by simp [DomOp.step, DomOp.quiet, St.askResync], rfl⟩
  | _ =>
    refine eqs _ _ h ?_
    simp only [DomOp.quiet, DomOp.step, e, e2]
    first
    | exact St.onDomain_quiet ..
    | exact St.onConfig_quiet ..
    | (simp only [St.createDomain, St.deleteDomain, St.deleteAllDomains, St.renameDomain, St.createConfiguration,
        St.atPath, St.addElement, St.removeElement, St.split, St.importDomains, St.importDomain, St.quiet_findDomain,
        St.quiet_domains, St.quiet_criteria, St.quiet_attached, St.quiet_nextId, St.quiet_main]
       repeat' split
       all_goals first
        | exact ⟨rfl, rfl⟩
        | exact ⟨trivial, rfl⟩
        | exact St.onDomain_quiet ..
        | (simp only [*]; exact ⟨rfl, rfl⟩))

/-! ## Histories of the manager -/

/-- The manager without what was sent to the hardware, without requests and without automatic
synchronisation. -/
def Mgr.quiet (m : Mgr) : Mgr := { m with st := m.st.quiet, autoSync := false }

/-- A hardware that never fails. -/
def MEnv.quiet (e : MEnv) : MEnv := { e with env := e.env.quiet, addr := fun _ => 0 }

theorem Mgr.run_quiet (e : MEnv) (m : Mgr) (op : DomOp) (h : (m.run e op).1 ≠ .abort) :
    (m.quiet.run e.quiet op.quiet).1 ≠ .abort ∧ (m.quiet.run e.quiet op.quiet).2.quiet = (m.run e op).2.quiet := by
  obtain ⟨h1, h2⟩ := DomOp.step_quiet e.env m.st op h
  refine ⟨h1, ?_⟩
  simp only [Mgr.run, Mgr.quiet]
  rw [← h2]
  rfl

theorem Mgr.tuned_quiet (e : MEnv) (m : Mgr) (op : DomOp) (h : (m.tuned e op).1 ≠ .abort) :
    (m.quiet.tuned e.quiet op.quiet).1 ≠ .abort ∧ (m.quiet.tuned e.quiet op.quiet).2.quiet = (m.tuned e op).2.quiet := by
  unfold Mgr.tuned at h ⊢
  have ht : m.quiet.tuning = m.tuning := rfl
  rw [ht]
  split
  · exact ⟨by simp, rfl⟩
  · rename_i hn
    rw [if_neg hn] at h
    exact Mgr.run_quiet e m op h

theorem St.apply_out (root : Elem) (hw : Hardware) (force : Bool) (st : St) :
    (st.apply root hw force).1 = .ok () ∨ (st.apply root hw force).1 = .abort := by
  unfold St.apply
  split
  · exact .inr rfl
  · exact .inl rfl

/-- An operation that is not about the hardware does to the values what it does without synchronisation. -/
theorem MOp.step_quiet (e : MEnv) (m : Mgr) (op : MOp) (hop : Spec.AboutHardware op = false) (h : (op.step e m).1 ≠ .abort) :
    (op.step e.quiet m.quiet).1 ≠ .abort ∧ (op.step e.quiet m.quiet).2.quiet = (op.step e m).2.quiet := by
  cases op with
  | askResync i => simp [Spec.AboutHardware] at hop
  | sync => simp [Spec.AboutHardware] at hop
  | setAutoSync on => simp [Spec.AboutHardware] at hop
  | setValueSpace raw => exact ⟨by simp [MOp.step], rfl⟩
  | setOutputRawFormat hex => exact ⟨by simp [MOp.step], rfl⟩
  | applyConfigurations =>
    simp only [MOp.step, Mgr.applyConfigurations] at h ⊢
    have ht : m.quiet.tuning = m.tuning := rfl
    rw [ht]
    by_cases hn : (!m.tuning) = true
    · rw [if_pos hn] at h ⊢
      rw [if_pos hn]
      exact Mgr.run_quiet e m (.apply false) h
    · rw [if_neg hn, if_neg hn]
      exact ⟨by simp, rfl⟩
  | setTuningMode on =>
    have ht : m.quiet.tuning = m.tuning := rfl
    have ha : e.quiet.allowed = e.allowed := rfl
    simp only [MOp.step, Mgr.setTuningMode, ht, ha] at h ⊢
    by_cases h1 : on = m.tuning
    · rw [if_pos h1, if_pos h1]; exact ⟨by simp, rfl⟩
    · rw [if_neg h1] at h ⊢
      rw [if_neg h1]
      by_cases h2 : (on && !e.allowed) = true
      · rw [if_pos h2, if_pos h2]; exact ⟨by simp, rfl⟩
      · rw [if_neg h2] at h ⊢
        rw [if_neg h2]
        cases on with
        | true => exact ⟨by simp, rfl⟩
        | false =>
          simp only [Bool.not_false, if_true] at h ⊢
          have hout := St.apply_out e.env.root e.env.hw true m.st
          have hq := Mgr.run_quiet e m (.apply true)
          have hout2 := St.apply_out e.quiet.env.root e.quiet.env.hw true m.quiet.st
          rcases hr : m.run e (.apply true) with ⟨o, m'⟩
          rcases hr2 : m.quiet.run e.quiet (.apply true) with ⟨o2, m2⟩
          have ho : o = (m.st.apply e.env.root e.env.hw true).1 := by
            have := congrArg Prod.fst hr; exact this.symm
          have ho2 : o2 = (m.quiet.st.apply e.quiet.env.root e.quiet.env.hw true).1 := by
            have := congrArg Prod.fst hr2; exact this.symm
          rw [← ho] at hout
          rw [← ho2] at hout2
          rw [hr] at h hq
          simp only [DomOp.quiet] at hq
          rw [hr2] at hq
          rcases hout with rfl | rfl
          · obtain ⟨q1, q2⟩ := hq (by simp)
            rcases hout2 with rfl | rfl
            · refine ⟨by simp, ?_⟩
              simp only [Mgr.quiet, Mgr.mk.injEq] at q2 ⊢
              exact ⟨q2.1, trivial, trivial, q2.2.2.2⟩
            · exact absurd rfl q1
          · exact absurd rfl h
  | handleSet p v =>
    simp only [MOp.step, Mgr.handleSet] at h ⊢
    have e1 : e.quiet.env.root = e.env.root := rfl
    have e2 : m.quiet.st.attached = m.st.attached := rfl
    have e3 : m.quiet.tuning = m.tuning := rfl
    rw [e1, e2, e3]
    by_cases h1 : (!e.env.root.setValid m.st.attached p v) = true
    · rw [if_pos h1, if_pos h1]; exact ⟨by simp, rfl⟩
    · rw [if_neg h1] at h ⊢
      rw [if_neg h1]
      by_cases h2 : m.tuning = true
      · rw [if_pos h2, if_pos h2]; exact ⟨by simp, rfl⟩
      · rw [if_neg h2] at h ⊢
        rw [if_neg h2]
        exact Mgr.run_quiet e m (.handleSet p v) h
  | setElementBytes path args =>
    simp only [MOp.step, Mgr.setElementBytes] at h ⊢
    have e1 : e.quiet.env.root = e.env.root := rfl
    have e3 : m.quiet.tuning = m.tuning := rfl
    rw [e1, e3]
    by_cases h2 : (!m.tuning) = true
    · rw [if_pos h2, if_pos h2]; exact ⟨by simp, rfl⟩
    · rw [if_neg h2] at h ⊢
      rw [if_neg h2]
      cases hl : e.env.root.locate path with
      | none => exact ⟨by simp, rfl⟩
      | some p =>
        simp only [hl] at h ⊢
        cases args with
        | nil => exact Mgr.run_quiet e m (.setElementBytes m.autoSync path []) h
        | cons a as =>
          simp only at h ⊢
          cases hc : convertTo false 8 a with
          | none => exact ⟨by simp, rfl⟩
          | some v => simp [hc] at h
  | setParameter path text => exact Mgr.tuned_quiet e m (.setParameter m.ctx m.autoSync path text) h
  | setConfigurationParameter dom conf path text =>
    exact Mgr.run_quiet e m (.setConfigurationParameter m.ctx m.autoSync dom conf path text) h
  | restoreConfiguration dom name => exact Mgr.tuned_quiet e m (.restoreConfiguration m.autoSync dom name) h
  | handleSetBytes p bytes => exact Mgr.run_quiet e m (.handleBytes m.autoSync p bytes) h
  | setElementXml path doc => exact Mgr.tuned_quiet e m (.setElementXml m.ctx m.autoSync path doc) h
  | handleSetXml p doc => exact Mgr.run_quiet e m (.handleXml m.ctx m.autoSync p doc) h
  | _ => first | exact Mgr.run_quiet e m _ h | exact Mgr.tuned_quiet e m _ h

theorem Mgr.sync_quiet (e : MEnv) (m : Mgr) : (m.sync e).2.quiet = m.quiet := by
  unfold Mgr.sync
  split <;> rfl

/-- One that is about the hardware changes no value. -/
theorem MOp.step_hardware (e : MEnv) (m : Mgr) (op : MOp) (hop : Spec.AboutHardware op = true) :
    (op.step e m).2.quiet = m.quiet := by
  cases op with
  | askResync i => rfl
  | sync => exact Mgr.sync_quiet e m
  | setAutoSync on =>
    simp only [MOp.step, Mgr.setAutoSync]
    split
    · have := Mgr.sync_quiet e m
      rcases hr : m.sync e with ⟨o, m'⟩
      rw [hr] at this
      cases o
      · exact this
      · exact this
      · exact this
    · rfl
  | _ => simp [Spec.AboutHardware] at hop

/-- The values after a history. -/
def quietAfter (e : MEnv) : List MOp → Mgr → Mgr
  | [], m => m.quiet
  | op :: ops, m => quietAfter e ops (op.step e.quiet m.quiet).2.quiet

theorem Mgr.quiet_quiet (m : Mgr) : m.quiet.quiet = m.quiet := rfl

theorem quietAfter_quiet (e : MEnv) (ops : List MOp) (m : Mgr) : quietAfter e ops m.quiet = quietAfter e ops m := by
  cases ops <;> rfl

theorem after_quiet (e : MEnv) (ops : List MOp) (m : Mgr) (h : Spec.Runs e ops m) :
    (Spec.after e ops m).quiet = quietAfter e (ops.filter (fun op => !Spec.AboutHardware op)) m := by
  induction ops generalizing m with
  | nil => rfl
  | cons op ops ih =>
    rw [Spec.after, ih _ h.2.2]
    cases hop : Spec.AboutHardware op with
    | true =>
      rw [List.filter_cons_of_neg (by simp [hop]), ← quietAfter_quiet, MOp.step_hardware e m op hop, quietAfter_quiet]
    | false =>
      rw [List.filter_cons_of_pos (by simp [hop]), quietAfter, (MOp.step_quiet e m op hop h.2.1).2, quietAfter_quiet]

theorem Mgr.quiet_eq {m m' : Mgr} : m.quiet = m'.quiet ↔ Spec.SameValues m m' := by
  constructor
  · intro h
    simp only [Mgr.quiet, St.quiet, Mgr.mk.injEq, St.mk.injEq, Mem.mk.injEq] at h
    obtain ⟨⟨⟨h1, _⟩, h2, h3, h4, h5, _⟩, h6, _, h7, h8⟩ := h
    exact ⟨h1.symm, h2.symm, h3.symm, h4.symm, h5.symm, h6.symm, h7.symm, h8.symm⟩
  · rintro ⟨h1, h2, h3, h4, h5, h6, h7, h8⟩
    simp only [Mgr.quiet, St.quiet, h1, h2, h3, h4, h5, h6, h7, h8]

end PF
