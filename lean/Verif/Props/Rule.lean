import Verif.Lemmas.RuleParser
import Verif.Props.Criterion

/-!
# Properties of application rules (C05, C06, C07, C09)
-/

namespace PF
open Spec

/-! ## C05: rules evaluate as Boolean formulas -/

mutual
theorem matches_sat (cs : List Criterion) : ∀ r : Rule, Refs cs r →
    ∃ b, r.matches cs = some b ∧ (b = true ↔ Sat cs r)
  | .crit i verb v, h => by
    cases h with
    | crit _ _ _ hi =>
      refine ⟨verb.eval cs[i] v, by simp [Rule.matches, hi], ?_⟩
      rw [C04_verb_meaning]
      constructor
      · intro hv; exact .crit i verb v cs[i] (List.getElem?_eq_getElem hi) hv
      · intro hs
        cases hs with
        | crit _ _ _ c hc hv =>
          rw [List.getElem?_eq_getElem hi] at hc; simp at hc; rw [hc]; exact hv
  | .compound true rs, h => by
    have hr : ∀ r ∈ rs, Refs cs r := by cases h; assumption
    obtain ⟨b, h1, h2⟩ := matchesLoop_sat cs true rs hr
    refine ⟨b, by rw [Rule.matches]; exact h1, ?_⟩
    simp only [if_true] at h2
    rw [h2]
    exact ⟨fun h => .all rs h, fun h => by cases h; assumption⟩
  | .compound false rs, h => by
    have hr : ∀ r ∈ rs, Refs cs r := by cases h; assumption
    obtain ⟨b, h1, h2⟩ := matchesLoop_sat cs false rs hr
    refine ⟨b, by rw [Rule.matches]; exact h1, ?_⟩
    simp only [Bool.false_eq_true, if_false] at h2
    rw [h2]
    exact ⟨fun ⟨r, h, h'⟩ => .any rs r h h', fun h => by cases h with | any _ r h h' => exact ⟨r, h, h'⟩⟩

theorem matchesLoop_sat (cs : List Criterion) (all : Bool) : ∀ rs : List Rule,
    (∀ r ∈ rs, Refs cs r) →
    ∃ b, Rule.matchesLoop cs all rs = some b ∧
      (b = true ↔ if all then ∀ r ∈ rs, Sat cs r else ∃ r ∈ rs, Sat cs r)
  | [], _ => ⟨all, by simp [Rule.matchesLoop], by cases all <;> simp⟩
  | r :: rs, h => by
    obtain ⟨b, h1, h2⟩ := matches_sat cs r (h r (by simp))
    obtain ⟨b', h3, h4⟩ := matchesLoop_sat cs all rs (fun x hx => h x (by simp [hx]))
    rw [Rule.matchesLoop, h1]
    dsimp only
    cases all <;> cases b <;> simp_all
end

/-- C05: a rule over existing criteria always has a value, and it is the value of its Boolean
formula. -/
theorem C05_rule_is_formula (cs : List Criterion) (r : Rule) (h : Refs cs r) :
    (r.matches cs = some true ↔ Sat cs r) ∧ (r.matches cs = some false ↔ ¬ Sat cs r) := by
  obtain ⟨b, h1, h2⟩ := matches_sat cs r h
  rw [h1, ← h2]
  cases b <;> simp

/-- C05: the two empty compound rules. -/
theorem C05_empty_rules (cs : List Criterion) :
    (Rule.compound true []).matches cs = some true ∧
    (Rule.compound false []).matches cs = some false := by
  simp [Rule.matches, Rule.matchesLoop]

/-- Sample criteria: an inclusive and an exclusive one. -/
def sampleCriteria : List Criterion :=
  [⟨s "Device", sampleIncl, 5#32, 0⟩,
   ⟨s "Mode", { inclusive := false, map := [(s "Idle", 0#32), (s "InCall", 3#32)] }, 3#32, 0⟩]

def sampleRule : Rule :=
  .compound true [.crit 0 .includes 4#32, .compound false [.crit 1 .is 0#32, .crit 1 .isNot 0#32]]

example : Refs sampleCriteria sampleRule := by
  refine .compound _ _ ?_
  simp only [List.mem_cons, List.not_mem_nil, or_false]
  rintro r (rfl | rfl)
  · exact .crit _ _ _ (by decide)
  · refine .compound _ _ ?_
    simp only [List.mem_cons, List.not_mem_nil, or_false]
    rintro r (rfl | rfl) <;> exact .crit _ _ _ (by decide)

example : sampleRule.matches sampleCriteria = some true := by decide

/-! ## C06: rule text round-trips -/

/-- C06 (`_partial`: rules that hold, for an inclusive criterion, a value which is not the number
of one literal are excluded, see `C06_composite_value_lost`; so are names and literals with
characters that are special in rules): parsing the printed text gives the rule back. -/
theorem C06_print_parse_partial (cs : List Criterion) (a : Bool) (rs : List Rule)
    (h : Printable cs (.compound a rs)) :
    parseRule cs (Rule.dump cs (.compound a rs)) = .ok (.compound a rs) := by
  have hch : ∀ r ∈ rs, Printable cs r := by cases h; assumption
  have hdump : Rule.dump cs (.compound a rs) =
      compoundType a ++ '{' :: (Rule.dumpLoop cs true rs ++ ['}']) := by simp [Rule.dump]
  unfold parseRule
  rw [hdump]
  generalize hn : (compoundType a ++ '{' :: (Rule.dumpLoop cs true rs ++ ['}'])).length = n
  have hlen : n = (compoundType a).length + ((Rule.dumpLoop cs true rs).length + 2) := by
    rw [← hn]; simp
  obtain ⟨x, xs, hx, hxs⟩ : ∃ x xs, compoundType a = x :: xs ∧ x ≠ ' ' := by
    cases a
    · exact ⟨'A', s "ny", rfl, by decide⟩
    · exact ⟨'A', s "ll", rfl, by decide⟩
  have e1 : consumeSpaces (compoundType a ++ '{' :: (Rule.dumpLoop cs true rs ++ ['}'])) =
      compoundType a ++ '{' :: (Rule.dumpLoop cs true rs ++ ['}']) := by
    rw [hx, List.cons_append, consumeSpaces_cons hxs]
  rw [parseLoop, iterate_delim (st := ⟨_, _, _, _, _⟩) e1 rfl (by simp [PStatus.delims]) (by
    intro y hy hy'
    have := (compoundType_chars a).2 y hy
    simp [PStatus.delims] at hy'; subst hy'; simp at this)]
  simp only [if_true, compoundType_parse]
  obtain ⟨ty, h1⟩ := parseLoop_printed cs n rs [] 0 true []
    { rest := Rule.dumpLoop cs true rs ++ ['}'], depth := 0 + 1, type := compoundType a,
      status := .beginCompound, root := none } hch rfl (by simp) rfl (by
      have : 0 < (compoundType a).length := by rw [hx]; simp
      simp only [List.length_append, List.length_cons, List.length_nil]; omega)
  rw [h1]
  simp only [Bool.false_eq_true, if_false, List.nil_append]
  cases n with
  | zero => omega
  | succ n =>
    rw [parseLoop]
    simp [iterate, consumeSpaces, splitFirst]

/-- C06, limit of the code: a rule accepted with a composite inclusive value prints with an empty
value, and that text reads back as a different rule. -/
theorem C06_composite_value_lost :
    ∃ r r', parseRule sampleCriteria (s "All{Device Is A|B}") = .ok r ∧
      Rule.dump sampleCriteria r = s "All{Device Is }" ∧
      parseRule sampleCriteria (Rule.dump sampleCriteria r) = .ok r' ∧
      r.matches sampleCriteria = some true ∧ r'.matches sampleCriteria = some false := by
  exact ⟨.compound true [.crit 0 .is 5#32], .compound true [.crit 0 .is 0#32], rfl, by decide, rfl,
    by decide, by decide⟩

example : Printable sampleCriteria sampleRule := by
  refine .compound _ _ ?_
  simp only [List.mem_cons, List.not_mem_nil, or_false]
  rintro r (rfl | rfl)
  · exact .crit 0 _ _ _ (s "B") rfl (by intro j c' hj; omega) (by decide) (by decide) (by decide)
      (by decide) (by decide)
  · refine .compound _ _ ?_
    have hf : ∀ (j : Nat) (c' : Criterion), j < 1 → sampleCriteria[j]? = some c' →
        c'.pathName ≠ s "Mode" := by
      intro j c' hj hc
      have : j = 0 := by omega
      subst this
      simp [sampleCriteria] at hc; subst hc; decide
    simp only [List.mem_cons, List.not_mem_nil, or_false]
    rintro r (rfl | rfl)
    · exact .crit 1 _ _ _ (s "Idle") rfl hf (by decide) (by decide) (by decide) (by decide) (by decide)
    · exact .crit 1 _ _ _ (s "Idle") rfl hf (by decide) (by decide) (by decide) (by decide) (by decide)

example : Rule.dump sampleCriteria sampleRule =
    s "All{Device Includes B, Any{Mode Is Idle, Mode IsNot Idle}}" := by decide

/-! ## C07: rule parsing always ends with an answer -/

/-- C07 (`_partial`: the process abort is not excluded, see `C07_abort_possible`): parsing any text
terminates within as many steps as the text has characters; the model's fuel never runs out. -/
theorem C07_parse_terminates_partial (cs : List Criterion) (text : Str) :
    (∃ r, parseRule cs text = .ok r) ∨ (∃ e, parseRule cs text = .err e) ∨
      parseRule cs text = .abort := by
  unfold parseRule
  have h := (parseLoop_fuel cs (text.length + 1) false []
    { rest := text, depth := 0, type := [], status := .init, root := none } (by simp)).1
  split
  · simp
  · simp
  · rename_i h'; exact absurd h' h
  · split <;> simp

/-- C07, limit of the code: some texts make the process abort (`ALWAYS_ASSERT`). -/
theorem C07_abort_possible :
    parseRule sampleCriteria (s "Any{}, Device Is A ") = .abort := rfl

example : parseRule sampleCriteria (s "Any{Device Is") = .err .syntaxError ∧
    parseRule sampleCriteria (s "All{Mode Includes Idle}") = .err .verbIncompatible ∧
    parseRule sampleCriteria (s "") = .err .noRule := ⟨rfl, rfl, rfl⟩

/-! ## C09: accepted rules are well typed -/

/-- C09: whatever the text, an accepted rule is well typed. -/
theorem C09_accepted_well_typed (cs : List Criterion) (text : Str) (r : Rule)
    (h : parseRule cs text = .ok r) : WellTyped cs r := by
  unfold parseRule at h
  split at h <;> try (simp at h; done)
  rename_i ch st h1
  split at h
  · simp at h; subst h
    rename_i r hr
    exact (parseLoop_wt cs _ false [] _ ch st (by simp) (by simp) h1).2 r hr
  · simp at h

/-- C09: so evaluating it never meets an unknown criterion. -/
theorem C09_accepted_evaluates (cs : List Criterion) (text : Str) (r : Rule)
    (h : parseRule cs text = .ok r) : ∃ b, r.matches cs = some b := by
  have key : ∀ r, WellTyped cs r → Refs cs r := by
    intro r hw
    induction hw with
    | crit i verb v c hc _ _ => exact .crit _ _ _ (List.getElem?_eq_some_iff.mp hc).1
    | compound a rs _ ih => exact .compound _ _ ih
  obtain ⟨b, hb, -⟩ := matches_sat cs r (key r (C09_accepted_well_typed cs text r h))
  exact ⟨b, hb⟩

example : ∃ r, parseRule sampleCriteria (s " All{ Device Includes A|B , Any{Mode Is Idle}}") = .ok r :=
  ⟨.compound true [.crit 0 .includes 5#32, .compound false [.crit 1 .is 0#32]], rfl⟩

end PF
