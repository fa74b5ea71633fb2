import Verif.Lemmas.CriteriaFrame
import Verif.Spec.CriteriaHistory
import Verif.Props.Manager

/-! # Criteria in histories of the manager (C65) -/

namespace PF
open Spec

theorem MOp.setCriterion_get (e : MEnv) (m : Mgr) (j : Nat) (w : BitVec 32) (i : Nat) :
    ((MOp.setCriterion j w).step e m).2.st.criteria[i]? =
      m.st.criteria[i]?.map fun c => if i = j then c.setState w else c := by
  simp [MOp.step, Mgr.run, DomOp.step, St.setCriterion]

/-- One operation: the name, type and number of the criteria are kept, and the state is what was set. -/
theorem MOp.step_state (e : MEnv) (m : Mgr) (op : MOp) (i : Nat) {c : Criterion} (hc : m.st.criteria[i]? = some c) :
    ∃ c', (op.step e m).2.st.criteria[i]? = some c' ∧ c'.name = c.name ∧ c'.type = c.type ∧
      c'.state = (lastSet i [op]).getD c.state := by
  rcases MOp.step_criteria e m op with h | ⟨j, w, rfl⟩ | ⟨_, ho, h⟩
  · by_cases hop : ∃ j w, op = .setCriterion j w
    · obtain ⟨j, w, rfl⟩ := hop
      rw [MOp.setCriterion_get, hc]
      refine ⟨_, rfl, ?_⟩
      unfold Criterion.setState
      by_cases hij : i = j
      · subst hij; simp only [lastSet, if_true]; by_cases hw : c.state = w <;> simp [hw]
      · simp [lastSet, hij, Ne.symm hij]
    · refine ⟨c, by rw [h, hc], rfl, rfl, ?_⟩
      cases op <;> first | rfl | exact absurd ⟨_, _, rfl⟩ hop
  · rw [MOp.setCriterion_get, hc]
    refine ⟨_, rfl, ?_⟩
    unfold Criterion.setState
    by_cases hij : i = j
    · subst hij; simp only [lastSet, if_true]; by_cases hw : c.state = w <;> simp [hw]
    · simp [lastSet, hij, Ne.symm hij]
  · refine ⟨c.resetModified, by rw [h]; simp [hc], rfl, rfl, ?_⟩
    rcases ho with ⟨rfl, _⟩ | ⟨rfl, _⟩ <;> rfl

theorem lastSet_cons (i : Nat) (op : MOp) (ops : List MOp) (v : BitVec 32) :
    (lastSet i (op :: ops)).getD v = (lastSet i ops).getD ((lastSet i [op]).getD v) := by
  unfold lastSet
  simp only [List.reverse_cons, List.findSome?_append, List.reverse_nil, List.nil_append]
  cases List.findSome? _ ops.reverse <;> rfl

/-- C65: whatever operations are done, accepted or refused, a criterion has the state last set for it, or
the one it had before if none was, and keeps its name and its values; no criterion appears or
disappears. -/
theorem C65_state_last_set (e : MEnv) (ops : List MOp) (m : Mgr) :
    (after e ops m).st.criteria.length = m.st.criteria.length ∧
    ∀ i c, m.st.criteria[i]? = some c → ∃ c', (after e ops m).st.criteria[i]? = some c' ∧
      c'.name = c.name ∧ c'.type = c.type ∧ c'.state = (lastSet i ops).getD c.state := by
  induction ops generalizing m with
  | nil => exact ⟨rfl, fun i c hc => ⟨c, hc, rfl, rfl, rfl⟩⟩
  | cons op ops ih =>
    obtain ⟨h1, h2⟩ := ih (op.step e m).2
    refine ⟨h1.trans ?_, ?_⟩
    · rcases MOp.step_criteria e m op with h | ⟨j, w, rfl⟩ | ⟨_, _, h⟩
      · rw [h]
      · simp [MOp.step, Mgr.run, DomOp.step, St.setCriterion]
      · rw [h]; simp
    · intro i c hc
      obtain ⟨c1, a1, a2, a3, a4⟩ := MOp.step_state e m op i hc
      obtain ⟨c2, b1, b2, b3, b4⟩ := h2 i c1 a1
      exact ⟨c2, b1, b2.trans a2, b3.trans a3, by rw [b4, a4, ← lastSet_cons]⟩

/-- C65: after an application of the configurations that did not stop, no criterion counts as modified. -/
theorem C65_application_resets (e : MEnv) (m : Mgr) (op : MOp) (ha : Applies m op) (ho : (op.step e m).1 ≠ .abort) :
    ∀ c ∈ (op.step e m).2.st.criteria, c.hasBeenModified = false := by
  have key : ∀ force, (m.run e (.apply force)).1 ≠ .abort →
      ∀ c ∈ (m.run e (.apply force)).2.st.criteria, c.hasBeenModified = false := by
    intro force h c hc
    rcases Mgr.apply_criteria e m force with ⟨_, h2⟩ | ⟨h1, _⟩
    · rw [h2] at hc
      obtain ⟨c0, _, rfl⟩ := List.mem_map.1 hc
      rfl
    · exact absurd h1 h
  rcases ha with ⟨rfl, ht⟩ | ⟨rfl, ht⟩
  · simp only [MOp.step, Mgr.applyConfigurations, ht, Bool.not_false, if_true] at ho ⊢
    exact key _ ho
  · have := key true
    rcases hr : m.run e (.apply true) with ⟨o, m'⟩
    rw [hr] at this
    simp only [MOp.step, Mgr.setTuningMode, ht, Bool.false_eq_true, if_false, Bool.false_and, Bool.not_false, if_true,
      hr] at ho ⊢
    cases o with
    | ok u => exact this (by simp)
    | err => exact this (by simp)
    | abort => exact absurd rfl ho

/-- C65: between applications a criterion counts as modified exactly if its state was changed at least
once, whatever else was done in between; up to 2^32 - 1 changes (the counter wraps, C10). -/
theorem C65_modified_iff_partial (e : MEnv) (ops : List MOp) (m : Mgr) (hno : NoApplication e ops m) {i : Nat}
    {c : Criterion} (hc : m.st.criteria[i]? = some c) (hm : c.hasBeenModified = false) (hb : changes i c.state ops < 2 ^ 32) :
    ∃ c', (after e ops m).st.criteria[i]? = some c' ∧ (c'.hasBeenModified = true ↔ 0 < changes i c.state ops) := by
  have key : ∀ (ops : List MOp) (m : Mgr) (c : Criterion), NoApplication e ops m → m.st.criteria[i]? = some c →
      ∃ c', (after e ops m).st.criteria[i]? = some c' ∧
        c'.nbModifications = c.nbModifications + BitVec.ofNat 32 (changes i c.state ops) := by
    intro ops
    induction ops with
    | nil => intro m c _ hc; exact ⟨c, hc, by simp [changes]⟩
    | cons op ops ih =>
      intro m c hno hc
      by_cases hop : ∃ j w, op = .setCriterion j w
      · obtain ⟨j, w, rfl⟩ := hop
        have hg := MOp.setCriterion_get e m j w i
        rw [hc] at hg
        obtain ⟨c', h1, h2⟩ := ih _ _ hno.2 hg
        refine ⟨c', h1, ?_⟩
        rw [h2]
        by_cases hij : i = j
        · subst hij
          by_cases hw : c.state = w
          · simp [changes, Criterion.setState, hw]
          · have hw' : ¬ w = c.state := fun x => hw x.symm
            simp only [changes, Criterion.setState, hw, hw', if_true, ne_eq, not_false_eq_true, and_self]
            rw [Nat.add_comm, BitVec.ofNat_add]
            exact BitVec.add_assoc ..
        · simp [changes, hij, Ne.symm hij]
      · rcases MOp.step_criteria e m op with h | ⟨j, w, rfl⟩ | ⟨_, ho, _⟩
        · obtain ⟨c', h1, h2⟩ := ih (op.step e m).2 c hno.2 (by rw [h, hc])
          refine ⟨c', h1, ?_⟩
          rw [h2]
          cases op <;> first | rfl | exact absurd ⟨_, _, rfl⟩ hop
        · exact absurd ⟨_, _, rfl⟩ hop
        · exact absurd ho hno.1
  obtain ⟨c', h1, h2⟩ := key ops m c hno hc
  refine ⟨c', h1, ?_⟩
  have h0 : c.nbModifications = 0#32 := by simpa [Criterion.hasBeenModified] using hm
  rw [h0] at h2
  simp only [Criterion.hasBeenModified, h2, BitVec.zero_add, bne_iff_ne, ne_eq]
  rw [← BitVec.toNat_inj, BitVec.toNat_ofNat, Nat.mod_eq_of_lt hb]
  simp [Nat.pos_iff_ne_zero]

/-- On the sample, in tuning mode: criterion 0 is set to 2 and later to 1; in between a domain is created
and another criterion set. -/
example :
    let ops : List MOp := [.setCriterion 0 2, .createDomain (s "X"), .setCriterion 1 1, .setCriterion 0 1, .deleteDomain (s "Nope")]
    lastSet 0 ops = some 1 ∧ lastSet 7 ops = none ∧ NoApplication Sample.menv ops Sample.mgr ∧
    ((after Sample.menv ops Sample.mgr).st.criteria.map Criterion.state).head? = some 1 ∧
    changes 0 0 ops = 2 ∧ Applies (after Sample.menv ops Sample.mgr) (.setTuningMode false) := by
  refine ⟨by decide, by decide, ?_, by decide +kernel, by decide, .inr ⟨rfl, by decide +kernel⟩⟩
  simp [NoApplication, Applies]

end PF
