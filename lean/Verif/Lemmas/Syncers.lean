import Verif.Lemmas.TreeAccess

/-! # Lemmas on syncer collection -/

namespace PF

theorem mem_syncerInsert (x y : Nat) (l : SyncerSet) : y ∈ SyncerSet.insert x l ↔ y = x ∨ y ∈ l := by
  induction l with
  | nil => simp [SyncerSet.insert]
  | cons z l ih =>
    unfold SyncerSet.insert
    split
    · simp
    · split
      · rename_i h; subst h; simp
      · simp only [List.mem_cons, ih]
        constructor
        · rintro (h | h | h) <;> simp [h]
        · rintro (h | h | h) <;> simp [h]

theorem fill_mono_aux : ∀ n, (∀ e : Elem, sizeOf e ≤ n → ∀ acc y, y ∈ acc → y ∈ e.fillFromDescendants acc) ∧
    (∀ cs : List Elem, sizeOf cs ≤ n → ∀ acc y, y ∈ acc → y ∈ Elem.fillFromAll acc cs) := by
  intro n
  induction n with
  | zero => exact ⟨fun e h => by cases e; simp at h, fun cs h => by cases cs <;> simp at h⟩
  | succ n ih =>
    constructor
    · intro e h acc y hy
      cases e with | mk nm k sy cs =>
      simp only [Elem.mk.sizeOf_spec] at h
      cases sy with
      | some x => simp only [Elem.fillFromDescendants]; exact (mem_syncerInsert _ _ _).2 (.inr hy)
      | none => simp only [Elem.fillFromDescendants]; exact ih.2 cs (by omega) acc y hy
    · intro cs h acc y hy
      cases cs with
      | nil => exact hy
      | cons c cs =>
        simp only [List.cons.sizeOf_spec] at h
        simp only [Elem.fillFromAll]
        exact ih.2 cs (by omega) _ y (ih.1 c (by omega) acc y hy)

theorem fill_mono (e : Elem) (acc : SyncerSet) (y : Nat) (h : y ∈ acc) : y ∈ e.fillFromDescendants acc :=
  (fill_mono_aux _).1 e (Nat.le_refl _) acc y h
theorem fillAll_mono (cs : List Elem) (acc : SyncerSet) (y : Nat) (h : y ∈ acc) : y ∈ Elem.fillFromAll acc cs :=
  (fill_mono_aux _).2 cs (Nat.le_refl _) acc y h

/-- Digging collects every syncer that has no syncer above it. -/
theorem fill_collects (e : Elem) (q : Pos) (f : Elem) (x : Nat) (hq : e.at? q = some f)
    (hx : f.syncer = some x)
    (top : ∀ r g, r <+: q → r ≠ q → e.at? r = some g → g.syncer = none) (acc : SyncerSet) :
    x ∈ e.fillFromDescendants acc := by
  induction q generalizing e acc with
  | nil =>
    simp only [Elem.at?, Option.some.injEq] at hq
    subst hq
    cases e with | mk nm k sy cs =>
    simp only [Elem.syncer] at hx; subst hx
    simp only [Elem.fillFromDescendants]
    exact (mem_syncerInsert _ _ _).2 (.inl rfl)
  | cons i q ih =>
    have h0 := top [] e List.nil_prefix (by simp) rfl
    cases e with | mk nm k sy cs =>
    simp only [Elem.syncer] at h0; subst h0
    simp only [Elem.fillFromDescendants]
    rw [Elem.at?_cons] at hq
    simp only [Elem.children] at hq
    cases hc : cs[i]? with
    | none => simp [hc] at hq
    | some c =>
      simp only [hc, Option.bind_some] at hq
      have hcol : ∀ acc, x ∈ c.fillFromDescendants acc := by
        intro acc
        refine ih c hq ?_ acc
        intro r g hr hne hg
        refine top (i :: r) g (by simpa using hr) (by simpa using hne) ?_
        rw [Elem.at?_cons]; simp only [Elem.children, hc, Option.bind_some]; exact hg
      clear top ih hq
      induction cs generalizing i acc with
      | nil => simp at hc
      | cons d cs ihc =>
        simp only [Elem.fillFromAll]
        cases i with
        | zero =>
          simp only [List.getElem?_cons_zero, Option.some.injEq] at hc
          subst hc
          exact fillAll_mono _ _ _ (hcol acc)
        | succ i => exact ihc i _ (by simpa using hc)

theorem getSyncer_spec (e : Elem) (inh : Option Nat) (q : Pos) (x : Nat) (h : e.getSyncer inh q = some x) :
    (∃ r g, r <+: q ∧ e.at? r = some g ∧ g.syncer = some x) ∨
    (inh = some x ∧ ∀ r g, r <+: q → e.at? r = some g → g.syncer = none) := by
  induction q generalizing e inh with
  | nil =>
    simp only [Elem.getSyncer] at h
    cases hs : e.syncer with
    | some y =>
      simp only [hs, Option.some_or, Option.some.injEq] at h
      subst h
      exact .inl ⟨[], e, List.nil_prefix, rfl, hs⟩
    | none =>
      simp only [hs, Option.none_or] at h
      refine .inr ⟨h, ?_⟩
      intro r g hr hg
      have : r = [] := List.prefix_nil.1 hr
      subst this
      simp only [Elem.at?, Option.some.injEq] at hg
      subst hg; exact hs
  | cons i q ih =>
    cases e with | mk nm k sy cs =>
    simp only [Elem.getSyncer] at h
    cases hc : cs[i]? with
    | none => simp [hc] at h
    | some c =>
      simp only [hc] at h
      rcases ih c _ h with ⟨r, g, hr, hg, hs⟩ | ⟨hi, hall⟩
      · refine .inl ⟨i :: r, g, by simpa using hr, ?_, hs⟩
        rw [Elem.at?_cons]; simp only [Elem.children, hc, Option.bind_some]; exact hg
      · cases sy with
        | some y =>
          simp only [Option.some_or, Option.some.injEq] at hi
          subst hi
          exact .inl ⟨[], _, List.nil_prefix, rfl, rfl⟩
        | none =>
          simp only [Option.none_or] at hi
          refine .inr ⟨hi, ?_⟩
          intro r g hr hg
          cases r with
          | nil => simp only [Elem.at?, Option.some.injEq] at hg; subst hg; rfl
          | cons j r =>
            simp only [List.cons_prefix_cons] at hr
            obtain ⟨rfl, hr⟩ := hr
            rw [Elem.at?_cons] at hg
            simp only [Elem.children, hc, Option.bind_some] at hg
            exact hall r g hr hg

theorem getSyncer_complete (e : Elem) (inh : Option Nat) (q : Pos) (f : Elem) (hq : e.at? q = some f)
    (h : e.getSyncer inh q = none) : inh = none ∧ ∀ r g, r <+: q → e.at? r = some g → g.syncer = none := by
  induction q generalizing e inh with
  | nil =>
    simp only [Elem.getSyncer, Option.or_eq_none_iff] at h
    refine ⟨h.2, ?_⟩
    intro r g hr hg
    have : r = [] := List.prefix_nil.1 hr
    subst this
    simp only [Elem.at?, Option.some.injEq] at hg
    subst hg; exact h.1
  | cons i q ih =>
    cases e with | mk nm k sy cs =>
    simp only [Elem.getSyncer] at h
    rw [Elem.at?_cons] at hq
    simp only [Elem.children] at hq
    cases hc : cs[i]? with
    | none => simp [hc] at hq
    | some c =>
      simp only [hc, Option.bind_some] at h hq
      obtain ⟨h1, h2⟩ := ih c _ hq h
      simp only [Option.or_eq_none_iff] at h1
      refine ⟨h1.2, ?_⟩
      intro r g hr hg
      cases r with
      | nil => simp only [Elem.at?, Option.some.injEq] at hg; subst hg; exact h1.1
      | cons j r =>
        simp only [List.cons_prefix_cons] at hr
        obtain ⟨rfl, hr⟩ := hr
        rw [Elem.at?_cons] at hg
        simp only [Elem.children, hc, Option.bind_some] at hg
        exact h2 r g hr hg

theorem unique_on_branch {root : Elem} (nn : root.SyncersNotNested) {r r' q : Pos} {g g' : Elem}
    (hr : r <+: q) (hr' : r' <+: q) (hg : root.at? r = some g) (hg' : root.at? r' = some g')
    (hs : g.syncer ≠ none) (hs' : g'.syncer ≠ none) : r = r' := by
  rcases List.prefix_or_prefix_of_prefix hr hr' with h | h
  · obtain ⟨t, rfl⟩ := h
    by_cases ht : t = []
    · simp [ht]
    · exact absurd (nn r t g g' hg hg' ht hs) hs'
  · obtain ⟨t, rfl⟩ := h
    by_cases ht : t = []
    · simp [ht]
    · exact absurd (nn r' t g' g hg' hg ht hs') hs


end PF
