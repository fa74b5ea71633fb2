import Verif.Lemmas.RuleText
import Verif.Props.Rule

/-!
# C93: the language of application rules
-/

namespace PF
open Spec

/-- C93 (`_partial`: that is what the parser accepts; it also accepts texts outside of the language, see below): a text of the
language, with any spacing, is accepted, and read as the rule that it says. -/
theorem C93_text_is_read_as_said_partial {cs : List Criterion} {all : Bool} {rs : List Rule} {a t : Str} (ha : Spaces a)
    (h : RuleText cs (.compound all rs) t) : parseRule cs (a ++ t) = .ok (.compound all rs) :=
  parseRule_text ha h

/-- C93: a text has one meaning. -/
theorem C93_unambiguous {cs : List Criterion} {all all' : Bool} {rs rs' : List Rule} {t : Str}
    (h : RuleText cs (.compound all rs) t) (h' : RuleText cs (.compound all' rs') t) : all = all' ∧ rs = rs' := by
  have e := (C93_text_is_read_as_said_partial (a := []) (by intro c hc; simp at hc) h).symm.trans
    (C93_text_is_read_as_said_partial (a := []) (by intro c hc; simp at hc) h')
  simpa using e

/-- A text of the language with uneven spacing. -/
example : RuleText sampleCriteria (.compound true [.crit 0 .includes 4#32, .compound false [.crit 1 .is 0#32, .compound true []]])
    (s "All{Device  Includes B  ,Any{ Mode Is   Idle, All{ }}}") := by
  have hm : ∀ (j : Nat) (c' : Criterion), j < 1 → sampleCriteria[j]? = some c' → c'.pathName ≠ s "Mode" := by
    intro j c' hj hc
    have : j = 0 := by omega
    subst this
    simp [sampleCriteria] at hc; subst hc; decide
  refine .compound (body := s "Device  Includes B  ,Any{ Mode Is   Idle, All{ }}") ?_
  refine .more (a := []) (t := s "Device  Includes B") (b := s "  ") (rest := s "Any{ Mode Is   Idle, All{ }}") ?_ ?_ ?_ ?_
  · simp [Spaces]
  · exact .crit (name := s "Device") (value := s "B") (a := s "  ") (b := s " ") (by simp [RuleWord, s]) (by simp [RuleWord, s])
      (.mk 0 .includes _ _ rfl rfl (by intro j c' hj; omega) rfl (by decide) (by decide)) (by simp [Spaces, s]) (by simp [s])
      (by simp [Spaces, s]) (by simp [s])
  · simp [Spaces, s]
  refine .last (a := []) (b := []) (t := s "Any{ Mode Is   Idle, All{ }}") (by simp [Spaces]) ?_ (by simp [Spaces])
  refine .compound (body := s " Mode Is   Idle, All{ }") ?_
  refine .more (a := s " ") (t := s "Mode Is   Idle") (b := []) (rest := s " All{ }") ?_ ?_ ?_ ?_
  · simp [Spaces, s]
  · exact .crit (name := s "Mode") (value := s "Idle") (a := s " ") (b := s "   ") (by simp [RuleWord, s]) (by simp [RuleWord, s])
      (.mk 1 .is _ _ rfl rfl hm rfl (by decide) (by decide)) (by simp [Spaces, s]) (by simp [s])
      (by simp [Spaces, s]) (by simp [s])
  · simp [Spaces]
  refine .last (a := s " ") (b := []) (t := s "All{ }") (by simp [Spaces, s]) ?_ (by simp [Spaces])
  exact .compound (body := s " ") (.none (by simp [Spaces, s]))

/-- C93 (limit): what follows a value, up to the next comma or brace, is dropped without an error, be it another rule. -/
theorem C93_words_after_value_dropped :
    parseRule sampleCriteria (s "All{Mode Is Idle Device Includes B}") = .ok (.compound true [.crit 1 .is 0#32]) ∧
    parseRule sampleCriteria (s "All{Any{Mode Is Idle} Device Includes B, Mode Is Idle}") =
      .ok (.compound true [.compound false [.crit 1 .is 0#32], .crit 1 .is 0#32]) := ⟨rfl, rfl⟩

/-- C93 (limit): of several rules with commas between them, outside of any braces, only the last one is kept. -/
theorem C93_last_of_several : parseRule sampleCriteria (s "All{Mode Is Idle},Any{ }") = .ok (.compound false []) := rfl

/-- C93 (limit): spaces in front of a rule are accepted, spaces behind it are not. -/
theorem C93_trailing_space :
    parseRule sampleCriteria (s "  All{ }") = .ok (.compound true []) ∧
    (match parseRule sampleCriteria (s "All{ } ") with | .ok _ => false | _ => true) = true := ⟨rfl, rfl⟩

end PF
