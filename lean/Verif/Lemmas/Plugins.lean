import Verif.Spec.Plugins

/-! Helper lemmas about the loading of plugins. -/

namespace PF
open Spec

theorem Linker.enter_loaded (lk : Linker) (st : PluginState) (f : Str) :
    (lk.enter st f).loaded = st.loaded ∧ (lk.enter st f).fallback = st.fallback ∧
    ∃ pre, (lk.enter st f).builders = pre ++ st.builders ∧ ∀ e, e ∈ pre ↔ ∃ ty ∈ lk.types f, e = (ty, .plugin f ty) := by
  unfold Linker.enter
  generalize lk.types f = tys
  induction tys generalizing st with
  | nil => exact ⟨rfl, rfl, [], rfl, by simp⟩
  | cons ty tys ih =>
    rw [List.foldl_cons]
    obtain ⟨h1, h2, pre, h3, h4⟩ := ih (st.addBuilder ty (.plugin f ty))
    refine ⟨h1, h2, pre ++ [(ty, .plugin f ty)], ?_, ?_⟩
    · rw [h3]; simp [PluginState.addBuilder]
    · intro e
      rw [List.mem_append, h4, List.mem_singleton]
      simp only [List.mem_cons, exists_eq_or_imp]
      constructor
      · rintro (h | h)
        · exact .inr h
        · exact .inl h
      · rintro (h | h)
        · exact .inr h
        · exact .inl h

/-- What each state of a loading satisfies: the builders are those of the libraries in memory, then that of virtual subsystems. -/
def PluginState.Sound (lk : Linker) (init : List Str) (st : PluginState) : Prop :=
  ∃ pre mem, st.loaded = init ++ mem ∧ st.builders = pre ++ [(s "Virtual", .virtual)] ∧
    ∀ e, e ∈ pre ↔ ∃ f ∈ mem, ∃ ty ∈ lk.types f, e = (ty, .plugin f ty)

theorem Linker.attempt_sound {lk : Linker} {init : List Str} {st : PluginState} (h : st.Sound lk init) (f : Str) :
    (lk.attempt st f).2.Sound lk init ∧ (lk.attempt st f).2.fallback = st.fallback := by
  unfold Linker.attempt
  split
  · obtain ⟨pre, mem, h1, h2, h3⟩ := h
    obtain ⟨e1, e2, p, e3, e4⟩ := lk.enter_loaded { st with loaded := st.loaded ++ [f] } f
    refine ⟨⟨p ++ pre, mem ++ [f], ?_, ?_, ?_⟩, e2⟩
    · exact e1.trans (by simp only [h1, List.append_assoc])
    · exact e3.trans (by simp only [h2, List.append_assoc])
    · intro e
      rw [List.mem_append, e4, h3]
      constructor
      · rintro (⟨ty, ht, he⟩ | ⟨g, hg, x⟩)
        · exact ⟨f, by simp, ty, ht, he⟩
        · exact ⟨g, by simp [hg], x⟩
      · rintro ⟨g, hg, ty, ht, he⟩
        rcases List.mem_append.1 hg with hg | hg
        · exact .inr ⟨g, hg, ty, ht, he⟩
        · obtain rfl := List.mem_singleton.1 hg
          exact .inl ⟨ty, ht, he⟩
  · exact ⟨h, rfl⟩

theorem Linker.pass_sound {lk : Linker} {init : List Str} (fs : List Str) {st : PluginState} (h : st.Sound lk init) :
    (lk.pass st fs).2.2.Sound lk init ∧ (lk.pass st fs).2.2.fallback = st.fallback := by
  induction fs generalizing st with
  | nil => exact ⟨h, rfl⟩
  | cons f fs ih =>
    have h1 := attempt_sound h f
    have h2 := ih h1.1
    unfold Linker.pass
    simp only
    split
    · exact ⟨h2.1, h2.2.trans h1.2⟩
    · exact ⟨h2.1, h2.2.trans h1.2⟩

theorem Linker.passes_sound {lk : Linker} {init : List Str} (n : Nat) {fs : List Str} {st : PluginState} (h : st.Sound lk init)
    {r : List Str × PluginState} (hr : lk.passes n st fs = some r) : r.2.Sound lk init ∧ r.2.fallback = st.fallback := by
  induction n generalizing fs st with
  | zero =>
    cases fs with
    | nil => simp only [Linker.passes, Option.some.injEq] at hr; subst hr; exact ⟨h, rfl⟩
    | cons f fs => simp [Linker.passes] at hr
  | succ n ih =>
    cases fs with
    | nil => simp only [Linker.passes, Option.some.injEq] at hr; subst hr; exact ⟨h, rfl⟩
    | cons f fs =>
      have h1 := pass_sound (f :: fs) h
      unfold Linker.passes at hr
      simp only at hr
      split at hr
      · have h2 := ih h1.1 hr
        exact ⟨h2.1, h2.2.trans h1.2⟩
      · simp only [Option.some.injEq] at hr; subst hr; exact h1

/-- A pass leaves some of the files, in their order, and fewer if it loaded one. -/
theorem Linker.pass_left (lk : Linker) (fs : List Str) (st : PluginState) :
    (lk.pass st fs).2.1.Sublist fs ∧ ((lk.pass st fs).1 = true → (lk.pass st fs).2.1.length < fs.length) ∧
    ((lk.pass st fs).1 = false → (lk.pass st fs).2.1 = fs) := by
  induction fs generalizing st with
  | nil => exact ⟨.slnil, fun h => by simp [Linker.pass] at h, fun _ => rfl⟩
  | cons f fs ih =>
    obtain ⟨h1, h2, h3⟩ := ih (lk.attempt st f).2
    unfold Linker.pass
    simp only
    split
    · refine ⟨h1.cons f, fun _ => ?_, fun h => by simp at h⟩
      have := h1.length_le
      simp only [List.length_cons]; omega
    · refine ⟨h1.cons_cons f, fun h => ?_, fun h => ?_⟩
      · have := h2 h
        simp only [List.length_cons]; omega
      · simp only [h3 h]

theorem Linker.passes_some (lk : Linker) (n : Nat) {fs : List Str} (st : PluginState) (h : fs.length ≤ n) :
    ∃ r, lk.passes n st fs = some r := by
  induction n generalizing fs st with
  | zero =>
    cases fs with
    | nil => exact ⟨_, rfl⟩
    | cons f fs => simp at h
  | succ n ih =>
    cases fs with
    | nil => exact ⟨_, rfl⟩
    | cons f fs =>
      unfold Linker.passes
      simp only
      split
      · rename_i hr
        have := (lk.pass_left (f :: fs) st).2.1 hr
        exact ih _ (by omega)
      · exact ⟨_, rfl⟩

/-- With entry points that do not throw: each file is loaded or left; what is loaded is loadable; if none was loaded, none
opens. -/
theorem Linker.pass_quiet {lk : Linker} {files : List Str} (fs : List Str) {st : PluginState}
    (hq : ∀ f ∈ fs, lk.throws f = false) (hsub : ∀ f ∈ fs, f ∈ files) (hl : ∀ g ∈ st.loaded, Loadable lk files g) :
    ((lk.pass st fs).2.2.loaded ++ (lk.pass st fs).2.1).Perm (st.loaded ++ fs) ∧
    (∀ g ∈ (lk.pass st fs).2.2.loaded, Loadable lk files g) ∧
    ((lk.pass st fs).1 = false → (lk.pass st fs).2.2 = st ∧ ∀ f ∈ fs, lk.opens st.loaded f = false) := by
  induction fs generalizing st with
  | nil => exact ⟨.refl _, hl, fun _ => ⟨rfl, by simp⟩⟩
  | cons f fs ih =>
    have hqf := hq f List.mem_cons_self
    have hmf := hsub f List.mem_cons_self
    unfold Linker.pass
    simp only
    by_cases ho : lk.opens st.loaded f = true
    · have e : lk.attempt st f = (true, lk.enter { st with loaded := st.loaded ++ [f] } f) := by
        unfold Linker.attempt; rw [if_pos ho, hqf]; rfl
      have el := (lk.enter_loaded { st with loaded := st.loaded ++ [f] } f).1
      simp only at el
      obtain ⟨h1, h2, -⟩ := ih (st := (lk.attempt st f).2) (fun g hg => hq g (by simp [hg])) (fun g hg => hsub g (by simp [hg])) (by
        rw [e]
        simp only [el]
        intro g hg
        rcases List.mem_append.1 hg with hg | hg
        · exact hl g hg
        · obtain rfl := List.mem_singleton.1 hg
          exact .step st.loaded g hmf hl ho)
      simp only [e, if_true] at h1 h2 ⊢
      refine ⟨?_, h2, by simp⟩
      rw [el] at h1
      simpa using h1
    · have ho' : lk.opens st.loaded f = false := by simpa using ho
      have e : lk.attempt st f = (false, st) := by unfold Linker.attempt; rw [if_neg ho]
      obtain ⟨h1, h2, h3⟩ := ih (st := st) (fun g hg => hq g (by simp [hg])) (fun g hg => hsub g (by simp [hg])) hl
      simp only [e, Bool.false_eq_true, if_false]
      refine ⟨?_, h2, fun h => ⟨(h3 h).1, ?_⟩⟩
      · exact List.perm_middle.trans ((h1.cons f).trans List.perm_middle.symm)
      · intro g hg
        rcases List.mem_cons.1 hg with rfl | hg
        · exact ho'
        · exact (h3 h).2 g hg

theorem Linker.passes_quiet {lk : Linker} {files : List Str} (n : Nat) {fs : List Str} {st : PluginState}
    (hq : ∀ f ∈ fs, lk.throws f = false) (hsub : ∀ f ∈ fs, f ∈ files) (hl : ∀ g ∈ st.loaded, Loadable lk files g)
    {r : List Str × PluginState} (hr : lk.passes n st fs = some r) :
    (r.2.loaded ++ r.1).Perm (st.loaded ++ fs) ∧ r.1.Sublist fs ∧ (∀ g ∈ r.2.loaded, Loadable lk files g) ∧
    ∀ f ∈ r.1, lk.opens r.2.loaded f = false := by
  induction n generalizing fs st with
  | zero =>
    cases fs with
    | nil => simp only [Linker.passes, Option.some.injEq] at hr; subst hr; exact ⟨.refl _, .slnil, hl, by simp⟩
    | cons f fs => simp [Linker.passes] at hr
  | succ n ih =>
    cases fs with
    | nil => simp only [Linker.passes, Option.some.injEq] at hr; subst hr; exact ⟨.refl _, .slnil, hl, by simp⟩
    | cons f fs =>
      have h1 := pass_quiet (f :: fs) hq hsub hl
      have h2 := lk.pass_left (f :: fs) st
      unfold Linker.passes at hr
      simp only at hr
      split at hr
      · have h3 := ih (fun g hg => hq g (h2.1.subset hg)) (fun g hg => hsub g (h2.1.subset hg)) h1.2.1 hr
        exact ⟨h3.1.trans h1.1, h3.2.1.trans h2.1, h3.2.2⟩
      · rename_i hn
        have hn' : (lk.pass st (f :: fs)).1 = false := by simpa using hn
        simp only [Option.some.injEq] at hr; subst hr
        refine ⟨h1.1, h2.1, h1.2.1, ?_⟩
        intro g hg
        obtain ⟨e1, e2⟩ := h1.2.2 hn'
        simp only at hg ⊢
        rw [e1]
        exact e2 g (h2.1.subset hg)

end PF
