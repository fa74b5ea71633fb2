import Verif.Spec.Schema

/-! Helper lemmas: deciding whether a text matches an expression. -/

namespace PF.Spec.Rx

/-- The empty text matches. -/
def nullable : Rx → Bool
  | .eps => true
  | .set _ => false
  | .seq a b => a.nullable && b.nullable
  | .alt a b => a.nullable || b.nullable
  | .star _ => true

/-- What is left to match after a character. -/
def after (c : Char) : Rx → Rx
  | .eps => .set fun _ => false
  | .set p => if p c then .eps else .set fun _ => false
  | .seq a b => if a.nullable then .alt (.seq (a.after c) b) (b.after c) else .seq (a.after c) b
  | .alt a b => .alt (a.after c) (b.after c)
  | .star a => .seq (a.after c) (.star a)

/-- The text matches. -/
def accepts : Rx → Str → Bool
  | r, [] => r.nullable
  | r, c :: t => (r.after c).accepts t

theorem nullable_of_nil {r : Rx} {t : Str} (h : Matches r t) : t = [] → r.nullable = true := by
  induction h with
  | eps => intro _; rfl
  | set _ => simp
  | seq _ _ iha ihb =>
    intro e
    obtain ⟨h1, h2⟩ := List.append_eq_nil_iff.1 e
    simp [nullable, iha h1, ihb h2]
  | left _ ih => intro e; simp [nullable, ih e]
  | right _ ih => intro e; simp [nullable, ih e]
  | nil => intro _; rfl
  | more _ _ _ _ => intro _; rfl

theorem after_of {r : Rx} {t : Str} (h : Matches r t) : ∀ {c : Char} {u : Str}, t = c :: u → Matches (r.after c) u := by
  induction h with
  | eps => intro c u e; simp at e
  | @set p d hp =>
    intro c u e
    obtain ⟨rfl, rfl⟩ : d = c ∧ [] = u := by simpa using e
    simp [after, hp, Matches.eps]
  | @seq a b t1 t2 h1 h2 iha ihb =>
    intro c u e
    cases t1 with
    | nil =>
      have hn := nullable_of_nil h1 rfl
      simp only [after, hn, if_true]
      exact .right (ihb e)
    | cons d t1 =>
      simp only [List.cons_append, List.cons.injEq] at e
      obtain ⟨rfl, rfl⟩ := e
      simp only [after]
      split
      · exact .left (.seq (iha rfl) h2)
      · exact .seq (iha rfl) h2
  | left _ ih => intro c u e; exact .left (ih e)
  | right _ ih => intro c u e; exact .right (ih e)
  | nil => intro c u e; simp at e
  | @more a t1 t2 h1 h2 iha ihb =>
    intro c u e
    cases t1 with
    | nil => exact ihb e
    | cons d t1 =>
      simp only [List.cons_append, List.cons.injEq] at e
      obtain ⟨rfl, rfl⟩ := e
      exact .seq (iha rfl) h2

theorem accepts_of {r : Rx} {t : Str} (h : Matches r t) : r.accepts t = true := by
  induction t generalizing r with
  | nil => exact nullable_of_nil h rfl
  | cons c t ih => exact ih (after_of h rfl)

/-- A text that is not accepted does not match. -/
theorem not_matches {r : Rx} {t : Str} (h : r.accepts t = false) : ¬ Matches r t := by
  intro hm
  rw [accepts_of hm] at h
  simp at h

end PF.Spec.Rx
