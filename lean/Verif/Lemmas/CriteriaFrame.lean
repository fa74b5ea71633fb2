import Verif.Lemmas.DomainStep
import Verif.Model.Manager

/-! # What the operations do to the criteria -/

namespace PF
open Spec

theorem St.onDomain_criteria (st : St) (name : Str) (f : Domain → Out (Domain × Attached)) :
    (st.onDomain name f).2.criteria = st.criteria := by
  unfold St.onDomain
  repeat' split
  all_goals rfl

theorem St.onConfig_criteria (st : St) (dom name : Str) (f : Config → Out Unit × Config) :
    (st.onConfig dom name f).2.criteria = st.criteria := by
  unfold St.onConfig
  repeat' split
  all_goals rfl

/-- Only setting a criterion and applying configurations change the criteria. -/
theorem DomOp.step_criteria (env : Env) (st : St) (op : DomOp) (h1 : ∀ i v, op ≠ .setCriterion i v)
    (h2 : ∀ force, op ≠ .apply force) : (op.step env st).2.criteria = st.criteria := by
  cases op with
  | setCriterion i v => exact absurd rfl (h1 i v)
  | apply force => exact absurd rfl (h2 force)
  | askResync i => rfl
  | _ =>
    simp only [DomOp.step, St.createDomain, St.deleteDomain, St.deleteAllDomains, St.renameDomain,
      St.setSequenceAwareness, St.createConfiguration, St.deleteConfiguration, St.renameConfiguration,
      St.saveConfiguration, St.restoreConfiguration, St.atPath, St.addElement, St.removeElement, St.split,
      St.setElementSequence, St.setApplicationRule, St.clearApplicationRule, St.setConfigParam, St.importDomains,
      St.importDomain, St.onDomain_criteria, St.onConfig_criteria]
    repeat' split
    all_goals first | rfl | exact St.onDomain_criteria .. | exact St.onConfig_criteria ..

theorem Mgr.run_criteria {e : MEnv} {m : Mgr} {op : DomOp} (h1 : ∀ i v, op ≠ .setCriterion i v)
    (h2 : ∀ force, op ≠ .apply force) : (m.run e op).2.st.criteria = m.st.criteria :=
  DomOp.step_criteria e.env m.st op h1 h2

theorem Mgr.tuned_criteria {e : MEnv} {m : Mgr} {op : DomOp} (h1 : ∀ i v, op ≠ .setCriterion i v)
    (h2 : ∀ force, op ≠ .apply force) : (m.tuned e op).2.st.criteria = m.st.criteria := by
  unfold Mgr.tuned
  split
  · rfl
  · exact Mgr.run_criteria h1 h2

theorem Mgr.sync_criteria (e : MEnv) (m : Mgr) : (m.sync e).2.st.criteria = m.st.criteria := by
  unfold Mgr.sync
  split
  · rfl
  · exact Mgr.run_criteria (by simp) (by simp)

theorem Mgr.apply_criteria (e : MEnv) (m : Mgr) (force : Bool) :
    ((m.run e (.apply force)).1 = .ok () ∧
      (m.run e (.apply force)).2.st.criteria = m.st.criteria.map Criterion.resetModified) ∨
    ((m.run e (.apply force)).1 = .abort ∧ (m.run e (.apply force)).2.st.criteria = m.st.criteria) := by
  simp only [Mgr.run, DomOp.step, St.apply]
  split
  · right; exact ⟨rfl, rfl⟩
  · left; exact ⟨rfl, rfl⟩

/-- The operations that apply configurations, in the state they are done in: `applyConfigurations`
outside of tuning mode and the end of tuning mode. -/
theorem MOp.step_criteria (e : MEnv) (m : Mgr) (op : MOp) :
    (op.step e m).2.st.criteria = m.st.criteria ∨
    (∃ i v, op = .setCriterion i v) ∨
    ((op.step e m).1 = .ok () ∧ (op = .applyConfigurations ∧ m.tuning = false ∨ op = .setTuningMode false ∧ m.tuning = true) ∧
      (op.step e m).2.st.criteria = m.st.criteria.map Criterion.resetModified) := by
  cases op with
  | setCriterion i v => exact .inr (.inl ⟨i, v, rfl⟩)
  | applyConfigurations =>
    simp only [MOp.step, Mgr.applyConfigurations]
    split
    · rename_i ht
      rcases Mgr.apply_criteria e m false with ⟨h1, h2⟩ | ⟨_, h2⟩
      · exact .inr (.inr ⟨h1, .inl ⟨trivial, by simpa using ht⟩, h2⟩)
      · exact .inl h2
    · exact .inl rfl
  | setTuningMode on =>
    cases on with
    | true =>
      left
      simp only [MOp.step, Mgr.setTuningMode]
      repeat' split
      all_goals first | rfl | simp_all
    | false =>
      simp only [MOp.step, Mgr.setTuningMode]
      cases ht : m.tuning with
      | false => left; simp
      | true =>
        simp only [Bool.false_eq_true, if_false, Bool.false_and, Bool.not_false, if_true]
        rcases hr : m.run e (.apply true) with ⟨o, m'⟩
        have := Mgr.apply_criteria e m true
        rw [hr] at this
        rcases this with ⟨h1, h2⟩ | ⟨h1, h2⟩
        · simp only at h1; subst h1
          exact .inr (.inr ⟨rfl, by simp, h2⟩)
        · simp only at h1; subst h1
          exact .inl h2
  | setAutoSync on =>
    left
    simp only [MOp.step, Mgr.setAutoSync]
    split
    · rcases hr : m.sync e with ⟨o, m'⟩
      have := Mgr.sync_criteria e m
      rw [hr] at this
      cases o <;> exact this
    · rfl
  | sync => exact .inl (Mgr.sync_criteria e m)
  | setElementBytes path args =>
    left
    simp only [MOp.step, Mgr.setElementBytes]
    repeat' split
    all_goals first | rfl | exact Mgr.run_criteria (by simp) (by simp)
  | handleSet p v =>
    left
    simp only [MOp.step, Mgr.handleSet]
    repeat' split
    all_goals first | rfl | exact Mgr.run_criteria (by simp) (by simp)
  | setValueSpace raw => exact .inl rfl
  | setOutputRawFormat hex => exact .inl rfl
  | _ =>
    left
    first
    | exact Mgr.run_criteria (by simp) (by simp)
    | exact Mgr.tuned_criteria (by simp) (by simp)

end PF
