import Verif.Lemmas.DomainStep
import Verif.Model.Manager

/-! # What the operations do to the requests for a resynchronisation -/

namespace PF
open Spec

theorem St.onDomain_asked (st : St) (name : Str) (f : Domain → Out (Domain × Attached)) :
    (st.onDomain name f).2.asked = st.asked := by
  unfold St.onDomain
  repeat' split
  all_goals rfl

theorem St.onConfig_asked (st : St) (dom name : Str) (f : Config → Out Unit × Config) :
    (st.onConfig dom name f).2.asked = st.asked := by
  unfold St.onConfig
  repeat' split
  all_goals rfl

/-- Only a request and an application of the configurations change the requests. -/
theorem DomOp.step_asked (env : Env) (st : St) (op : DomOp) (h1 : ∀ i, op ≠ .askResync i)
    (h2 : ∀ force, op ≠ .apply force) : (op.step env st).2.asked = st.asked := by
  cases op with
  | askResync i => exact absurd rfl (h1 i)
  | apply force => exact absurd rfl (h2 force)
  | setCriterion i v => rfl
  | _ =>
    simp only [DomOp.step, St.createDomain, St.deleteDomain, St.deleteAllDomains, St.renameDomain,
      St.setSequenceAwareness, St.createConfiguration, St.deleteConfiguration, St.renameConfiguration,
      St.saveConfiguration, St.restoreConfiguration, St.atPath, St.addElement, St.removeElement, St.split,
      St.setElementSequence, St.setApplicationRule, St.clearApplicationRule, St.setConfigParam, St.importDomains,
      St.importDomain, St.onDomain_asked, St.onConfig_asked]
    repeat' split
    all_goals first | rfl | exact St.onDomain_asked .. | exact St.onConfig_asked ..

theorem Mgr.run_asked {e : MEnv} {m : Mgr} {op : DomOp} (h1 : ∀ i, op ≠ .askResync i)
    (h2 : ∀ force, op ≠ .apply force) : (m.run e op).2.st.asked = m.st.asked :=
  DomOp.step_asked e.env m.st op h1 h2

theorem Mgr.tuned_asked {e : MEnv} {m : Mgr} {op : DomOp} (h1 : ∀ i, op ≠ .askResync i)
    (h2 : ∀ force, op ≠ .apply force) : (m.tuned e op).2.st.asked = m.st.asked := by
  unfold Mgr.tuned
  split
  · rfl
  · exact Mgr.run_asked h1 h2

theorem Mgr.sync_asked (e : MEnv) (m : Mgr) : (m.sync e).2.st.asked = m.st.asked := by
  unfold Mgr.sync
  split
  · rfl
  · exact Mgr.run_asked (by simp) (by simp)

theorem Mgr.apply_asked (e : MEnv) (m : Mgr) (force : Bool) :
    ((m.run e (.apply force)).1 = .ok () ∧
      (m.run e (.apply force)).2.st.asked = []) ∨
    ((m.run e (.apply force)).1 = .abort ∧ (m.run e (.apply force)).2.st.asked = m.st.asked) := by
  simp only [Mgr.run, DomOp.step, St.apply]
  split
  · right; exact ⟨rfl, rfl⟩
  · left; exact ⟨rfl, rfl⟩

/-- The operations that apply configurations, in the state they are done in: `applyConfigurations`
outside of tuning mode and the end of tuning mode. -/
theorem MOp.step_asked (e : MEnv) (m : Mgr) (op : MOp) :
    (op.step e m).2.st.asked = m.st.asked ∨
    (∃ i, op = .askResync i ∧ (op.step e m).2.st.asked = i :: m.st.asked) ∨
    ((op.step e m).1 = .ok () ∧ (op = .applyConfigurations ∧ m.tuning = false ∨ op = .setTuningMode false ∧ m.tuning = true) ∧
      (op.step e m).2.st.asked = []) := by
  cases op with
  | askResync i => exact .inr (.inl ⟨i, rfl, rfl⟩)
  | applyConfigurations =>
    simp only [MOp.step, Mgr.applyConfigurations]
    split
    · rename_i ht
      rcases Mgr.apply_asked e m false with ⟨h1, h2⟩ | ⟨_, h2⟩
      · exact .inr (.inr ⟨h1, .inl ⟨trivial, by simpa using ht⟩, h2⟩)
      · exact .inl h2
    · exact .inl rfl
  | setTuningMode on =>
    cases on with
    | true =>
      left
      simp only [MOp.step, Mgr.setTuningMode]
      repeat' split
      all_goals first | rfl | simp_all
    | false =>
      simp only [MOp.step, Mgr.setTuningMode]
      cases ht : m.tuning with
      | false => left; simp
      | true =>
        simp only [Bool.false_eq_true, if_false, Bool.false_and, Bool.not_false, if_true]
        rcases hr : m.run e (.apply true) with ⟨o, m'⟩
        have := Mgr.apply_asked e m true
        rw [hr] at this
        rcases this with ⟨h1, h2⟩ | ⟨h1, h2⟩
        · simp only at h1; subst h1
          exact .inr (.inr ⟨rfl, by simp, h2⟩)
        · simp only at h1; subst h1
          exact .inl h2
  | setAutoSync on =>
    left
    simp only [MOp.step, Mgr.setAutoSync]
    split
    · rcases hr : m.sync e with ⟨o, m'⟩
      have := Mgr.sync_asked e m
      rw [hr] at this
      cases o <;> exact this
    · rfl
  | sync => exact .inl (Mgr.sync_asked e m)
  | setElementBytes path args =>
    left
    simp only [MOp.step, Mgr.setElementBytes]
    repeat' split
    all_goals first | rfl | exact Mgr.run_asked (by simp) (by simp)
  | handleSet p v =>
    left
    simp only [MOp.step, Mgr.handleSet]
    repeat' split
    all_goals first | rfl | exact Mgr.run_asked (by simp) (by simp)
  | setValueSpace raw => exact .inl rfl
  | setOutputRawFormat hex => exact .inl rfl
  | _ =>
    left
    first
    | exact Mgr.run_asked (by simp) (by simp)
    | exact Mgr.tuned_asked (by simp) (by simp)

end PF
