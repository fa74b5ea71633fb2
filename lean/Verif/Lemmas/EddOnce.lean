import Verif.Lemmas.EddCommands

/-!
# Lemmas: each command is there once, in the order of the description
-/

namespace PF
open Spec

theorem eddNamed_append (k : Str) (a b : List EddCmd) : eddNamed k (a ++ b) = eddNamed k a ++ eddNamed k b := by simp [eddNamed]

theorem eddNamed_map_other {α : Type} (k : Str) (f : α → EddCmd) (l : List α) (h : ∀ x ∈ l, (f x).head? ≠ some k) :
    eddNamed k (l.map f) = [] := by
  unfold eddNamed
  rw [List.filter_eq_nil_iff]
  intro c hc
  obtain ⟨x, hx, rfl⟩ := List.mem_map.1 hc
  simpa using h x hx

theorem eddNamed_map_same {α : Type} (k : Str) (f : α → EddCmd) (l : List α) (h : ∀ x ∈ l, (f x).head? = some k) :
    eddNamed k (l.map f) = l.map f := by
  unfold eddNamed
  rw [List.filter_eq_self]
  intro c hc
  obtain ⟨x, hx, rfl⟩ := List.mem_map.1 hc
  simpa using h x hx

/-- The commands of the configurations of a domain. -/
theorem eddSeq_confs {d : Str} {aw : Bool} {rules : EddChain → List EddNode} : ∀ {ys : List (EddChain × (List EddNode × EddNode))}
    {confs : List EddCmd}, eddSeq (ys.map fun y => eddBlock d aw ((y.1 ++ [y.2]).map fun z => z.2.el.name) (rules (y.1 ++ [y.2])) []
      y.2.2.kids) = some confs →
    eddNamed (s "createDomain") confs = [] ∧ eddNamed (s "addElement") confs = [] ∧ eddNamed (s "setSequenceAwareness") confs = [] ∧
    eddNamed (s "createConfiguration") confs = ys.map (fun y => [s "createConfiguration", d, eddFullName (y.1 ++ [y.2])]) ∧
    (eddNamed (s "setRule") confs).map (·.take 3) = ys.map (fun y => [s "setRule", d, eddFullName (y.1 ++ [y.2])]) ∧
    (eddNamed (s "setElementSequence") confs).map (·.take 3) =
      (if aw then ys.map (fun y => [s "setElementSequence", d, eddFullName (y.1 ++ [y.2])]) else []) ∧
    eddNamed (s "setConfigurationParameter") confs = ys.flatMap fun y => (eddSettings y.2.2).map fun l =>
      [s "setConfigurationParameter", d, eddFullName (y.1 ++ [y.2]), l.1, l.2]
  | [], confs, h => by
    simp only [List.map_nil, eddSeq, Option.some.injEq] at h
    subst h
    simp [eddNamed]
  | y :: ys, confs, h => by
    simp only [List.map_cons, eddSeq] at h
    obtain ⟨l, r, h1, h2, rfl⟩ := eddAppend_some h
    obtain ⟨t, _, rfl⟩ := eddBlock_eq h1
    obtain ⟨i1, i2, i3, i4, i5, i6, i7⟩ := eddSeq_confs h2
    have n1 : ∀ k, k ≠ s "setConfigurationParameter" → eddNamed k ((eddSettings y.2.2).map fun l =>
        [s "setConfigurationParameter", d, eddFullName (y.1 ++ [y.2]), l.1, l.2]) = [] := by
      intro k hk
      apply eddNamed_map_other
      intro x _
      simpa using Ne.symm hk
    have n2 : eddNamed (s "setConfigurationParameter") ((eddSettings y.2.2).map fun l =>
        [s "setConfigurationParameter", d, eddFullName (y.1 ++ [y.2]), l.1, l.2]) = (eddSettings y.2.2).map fun l =>
        [s "setConfigurationParameter", d, eddFullName (y.1 ++ [y.2]), l.1, l.2] := by
      apply eddNamed_map_same
      intro x _
      simp
    simp only [eddNamed_append, i1, i2, i3, i4, i7, List.map_append, i5, i6, n2]
    rw [n1 _ (by decide), n1 _ (by decide), n1 _ (by decide), n1 _ (by decide), n1 _ (by decide), n1 _ (by decide)]
    cases aw <;> simp [eddNamed, s]

theorem eddOnce_aux {xs : List (EddChain × (List EddNode × EddNode))} {o : Option (List EddCmd)} (h : EddDomsRes [] [] [] xs o) :
    ∀ cmds, o = some cmds → EddOnce xs cmds := by
  induction h with
  | nil =>
    intro cmds he
    simp only [Option.some.injEq] at he
    subst he
    constructor <;> simp [eddNamed]
  | @cons x xs head r hh _ ih =>
    intro cmds he
    obtain ⟨l, r', h1, h2, rfl⟩ := eddAppend_some he
    obtain ⟨i1, i2, i3, i4, i5, i6, i7⟩ := ih _ h2
    obtain ⟨confs, rfl, hc⟩ := eddDomRes_eq (gs := x.1) (d := x.2) h1
    obtain ⟨j1, j2, j3, j4, j5, j6, j7⟩ := eddSeq_confs (rules := fun ch => eddRulesAlong [] (x.1 ++ x.2 :: ch)) hc
    have n1 : ∀ k, k ≠ s "addElement" → eddNamed k (head.map fun p => [s "addElement", eddFullName (x.1 ++ [x.2]), p]) = [] := by
      intro k hk
      apply eddNamed_map_other
      intro x _
      simpa using Ne.symm hk
    have n2 : eddNamed (s "addElement") (head.map fun p => [s "addElement", eddFullName (x.1 ++ [x.2]), p]) =
        head.map fun p => [s "addElement", eddFullName (x.1 ++ [x.2]), p] := by
      apply eddNamed_map_same
      intro x _
      simp
    have hp : (head.map fun p => [s "addElement", eddFullName (x.1 ++ [x.2]), p]).Perm
        ((((eddConfChains [] x.2.2.kids).head?.map fun y => (eddSettings y.2.2).map (·.1)).getD []).map fun p =>
          [s "addElement", eddFullName (x.1 ++ [x.2]), p]) := by
      apply List.Perm.map
      cases hcf : eddConfChains [] x.2.2.kids with
      | nil => rw [hh.1 hcf]; exact .refl _
      | cons y ys => exact (hh.2 y (by rw [hcf]; simp)).trans (eddSettings_names y.2.2)
    constructor
    all_goals simp only [eddNamed_append, List.map_append, List.flatMap_cons, List.map_cons, j1, j2, j3, j4, j5, j6, j7]
    · rw [i1, n1 _ (by decide)]
      split <;> simp [eddNamed, s]
    · rw [i2, n1 _ (by decide)]
      rw [List.filter_cons]
      cases eddAware (x.1 ++ [x.2]) <;> simp [eddNamed, s]
    · rw [n2]
      have : ∀ b : Bool, eddNamed (s "addElement") [[s "createDomain", eddFullName (x.1 ++ [x.2])]] = [] ∧
          eddNamed (s "addElement") (if b then [[s "setSequenceAwareness", eddFullName (x.1 ++ [x.2]), s "true"]] else []) = [] := by
        intro b; cases b <;> simp [eddNamed, s]
      rw [(this true).1, (this _).2]
      simpa using hp.append i3
    · rw [i4, n1 _ (by decide)]
      cases eddAware (x.1 ++ [x.2]) <;> simp [eddNamed, s]
    · rw [i5, n1 _ (by decide)]
      cases eddAware (x.1 ++ [x.2]) <;> simp [eddNamed, s]
    · rw [i6, n1 _ (by decide)]
      cases eddAware (x.1 ++ [x.2]) <;> simp [eddNamed, s]
    · rw [i7, n1 _ (by decide)]
      cases eddAware (x.1 ++ [x.2]) <;> simp [eddNamed, s]

end PF
