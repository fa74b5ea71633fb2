import Verif.Lemmas.CriteriaFile
import Verif.Spec.EddBuilt

/-!
# C96: files of criteria
-/

namespace PF
open Spec

/-- **C96 (lines).**  A line is read as a criterion exactly when it declares that criterion. -/
theorem C96_line (t : Str) (c : CriterionLine) : parseCriterion t = some c ↔ LineDeclares t ⟨c.inclusive, c.name, c.values⟩ :=
  parseCriterion_iff t c

/-- C96: a line declares at most one criterion. -/
theorem C96_determined {t : Str} {d d' : GenCriterion} (h : LineDeclares t d) (h' : LineDeclares t d') : d = d' := by
  have h1 := (C96_line t ⟨d.inclusive, d.name, d.values⟩).2 h
  have h2 := (C96_line t ⟨d'.inclusive, d'.name, d'.values⟩).2 h'
  rw [h1] at h2
  simp only [Option.some.injEq, CriterionLine.mk.injEq] at h2
  obtain ⟨a, b, c⟩ := d
  obtain ⟨a', b', c'⟩ := d'
  obtain ⟨rfl, rfl, rfl⟩ := h2
  rfl

/-- **C96 (files).**  A file is accepted exactly when each of its lines declares a criterion; these are the criteria, in this order. -/
theorem C96_file : ∀ (ts : List Str) (cs : List CriterionLine), parseCriteria ts = some cs ↔
    Each (fun t c => LineDeclares t ⟨c.inclusive, c.name, c.values⟩) ts cs
  | [], cs => by
    constructor
    · intro h; simp only [parseCriteria, Option.some.injEq] at h; subst h; exact .nil
    · intro h; cases h; rfl
  | t :: ts, cs => by
    unfold parseCriteria
    constructor
    · intro h
      split at h
      · simp at h
      · rename_i c hc
        obtain ⟨cs', h1, rfl⟩ := Option.map_eq_some_iff.1 h
        exact .cons ((C96_line ..).1 hc) ((C96_file ts cs').1 h1)
    · intro h
      cases h with
      | cons h1 h2 =>
        rw [(C96_line ..).2 h1, (C96_file ts _).2 h2]
        rfl

/-- C96: a file is refused exactly when one of its lines declares nothing. -/
theorem C96_refused : ∀ ts : List Str, parseCriteria ts = none ↔ ∃ t ∈ ts, ∀ d, ¬ LineDeclares t d
  | [] => by simp [parseCriteria]
  | t :: ts => by
    unfold parseCriteria
    cases hc : parseCriterion t with
    | none =>
      simp only [true_iff]
      refine ⟨t, by simp, fun d h => ?_⟩
      rw [(C96_line t ⟨d.inclusive, d.name, d.values⟩).2 h] at hc
      simp at hc
    | some c =>
      simp only [Option.map_eq_none_iff, C96_refused ts]
      constructor
      · rintro ⟨u, hu, h⟩
        exact ⟨u, by simp [hu], h⟩
      · rintro ⟨u, hu, h⟩
        rcases List.mem_cons.1 hu with rfl | hu
        · exact absurd ((C96_line ..).1 hc) (h _)
        · exact ⟨u, hu, h⟩

/-- **C96 (format).**  A line in the documented format is read as what it says. -/
theorem C96_written {d : GenCriterion} {t : Str} (h : WrittenLine d t) : LineDeclares t d := by
  cases h with
  | @mk sp1 sp2 sp3 vs h1 h2 h3 h4 h5 h6 h7 h8 h9 =>
    have hh : ∀ c, vs.head? = some c → ¬ White c := by
      intro c hc
      cases hv : d.values with
      | nil => exact absurd hv h8
      | cons w ws =>
        rw [hv] at h9 h7
        have hw := h7 w (by simp)
        obtain ⟨a, l, rfl⟩ := List.exists_cons_of_ne_nil hw
        cases h9 with
        | last g =>
          simp only [List.head?_cons, Option.some.injEq] at hc
          exact g c (by simp [hc])
        | more g =>
          simp only [List.cons_append, List.head?_cons, Option.some.injEq] at hc
          exact g c (by simp [hc])
    refine ⟨vs, ⟨sp1, sp2, sp3, rfl, h1, h2, h4, h5, h6, hh⟩, h9, fun name' rest' h' => ?_⟩
    obtain ⟨r, e, hr⟩ := (namedLine_iff ..).1 h'
    have e' : r = sp1 ++ (d.name ++ (sp2 ++ ':' :: (sp3 ++ vs))) := by
      refine List.append_cancel_left (as := kindText d.inclusive) ?_
      rw [← e]; simp
    obtain ⟨i, g1, g2, g3, -⟩ := (namedRest_iff ..).1 hr
    have hd : r.dropWhile reSpace = d.name ++ (sp2 ++ ':' :: (sp3 ++ vs)) := by
      rw [e']
      refine dropWhile_white h1 fun c hc => ?_
      obtain ⟨a, l, hal⟩ := List.exists_cons_of_ne_nil h5
      rw [hal] at hc
      simp only [List.cons_append, List.head?_cons, Option.some.injEq] at hc
      exact h6 c (by rw [hal]; simp [hc])
    rw [hd] at g2 g3
    obtain ⟨b, sp, rfl⟩ := List.exists_cons_of_ne_nil h3
    have hb := (reSpace_iff b).2 (h2 b (by simp))
    rw [List.takeWhile_append_of_pos (fun c hc => by simp [(not_reSpace_iff c).2 (h6 c hc)])] at g2
    simp only [List.cons_append, List.takeWhile, hb, Bool.not_true, List.append_nil] at g2
    rw [g3, List.length_take]
    omega

/-! ## Samples and limits -/

/-- A file, with various spaces. -/
def sampleCriteriaFile : List Str :=
  [s "InclusiveCriterion Device : Speaker Headset", s "ExclusiveCriterion\tMode\t:Normal  Call\tRing"]

example : parseCriteria sampleCriteriaFile =
    some [⟨true, s "Device", [s "Speaker", s "Headset"]⟩, ⟨false, s "Mode", [s "Normal", s "Call", s "Ring"]⟩] := rfl

/-- The first line is in the documented format. -/
example : WrittenLine ⟨true, s "Device", [s "Speaker", s "Headset"]⟩ (s "InclusiveCriterion Device : Speaker Headset") := by
  have hw : ∀ t : Str, t.all (fun c => !reSpace c) = true → NoWhite t := fun t h c hc => by
    rw [← not_reSpace_iff]; simpa using List.all_eq_true.1 h c hc
  have hs : AllWhite (s " ") := by intro c hc; simp [s] at hc; exact .inl hc
  exact .mk (sp1 := s " ") (sp2 := s " ") (sp3 := s " ") (vs := s "Speaker Headset") hs hs (by decide) hs (by decide) (hw _ rfl)
    (by decide) (by decide)
    (.more (w := s "Speaker") (sp := s " ") (t := s "Headset") (hw _ rfl) hs (by decide) (by
      intro c hc
      simp only [s] at hc
      rw [← not_reSpace_iff]
      simp at hc
      subst hc; decide) (.last (hw _ rfl)))

/-- C96 (limit): white space at the end of a line, as that of files with carriage returns, declares one more value, with an empty
name. -/
theorem C96_space_at_the_end : parseCriteria [s "ExclusiveCriterion Mode : Normal Call\r"] =
    some [⟨false, s "Mode", [s "Normal", s "Call", []]⟩] := rfl

/-- C96 (limit): a criterion without values has one, with an empty name. -/
theorem C96_no_value : parseCriteria [s "ExclusiveCriterion Mode :"] = some [⟨false, s "Mode", [[]]⟩] := rfl

/-- C96 (limit): without a space before the colon, a value with a colon is cut, and what precedes is taken for the name. -/
theorem C96_colons : parseCriteria [s "ExclusiveCriterion Mode:on:call off"] =
    some [⟨false, s "Mode:on", [s "call", s "off"]⟩] := rfl

/-- C96 (limit): empty lines and comments are refused. -/
theorem C96_empty_line : parseCriteria [s "ExclusiveCriterion Mode : Normal", []] = none ∧ parseCriteria [s "# Modes"] = none := ⟨rfl, rfl⟩

end PF
