import Verif.Spec.AdaptationShown
import Verif.Props.Properties
import Verif.Props.Adaptation

/-!
# The properties shown of an adaptation (C100)
-/

namespace PF
open Spec

theorem ratFixed_eq (q : Rat) : ratFixed q = millionthsText (decide (q < 0)) (roundEven (q.num.natAbs * 10 ^ 6) q.den) := by
  unfold ratFixed millionthsText
  by_cases h : q < 0 <;> simp [h]

theorem ratFixed_shows (q : Rat) : ShowsNear (ratFixed q) q := by
  have ht := millionthsText_value (decide (q < 0)) (roundEven (q.num.natAbs * 10 ^ 6) q.den)
  rw [← ratFixed_eq] at ht
  have hr := roundEven_half (q.num.natAbs * 10 ^ 6) (b := q.den) q.den_pos
  generalize roundEven (q.num.natAbs * 10 ^ 6) q.den = n at *
  have hd0 : (0 : Rat) < q.den := by exact_mod_cast q.den_pos
  have habs : |q| = (q.num.natAbs : Rat) / q.den := by
    conv_lhs => rw [← Rat.num_div_den q]
    rw [abs_div, abs_of_pos hd0, ← Int.cast_abs, Int.abs_eq_natAbs]
    rfl
  have hd : |(|q| - n / 10 ^ 6)| ≤ 1 / (2 * 10 ^ 6) := by
    rw [habs]
    clear habs ht
    generalize q.num.natAbs = m at hr ⊢
    have e : (m : Rat) / q.den - n / 10 ^ 6 = -((((n : Int) * (q.den : Nat) - ((m * 10 ^ 6 : Nat) : Int) : Int) : Rat)) / (q.den * 10 ^ 6) := by
      push_cast
      field_simp
      ring
    rw [e, abs_div, abs_neg, abs_of_pos (show (0 : Rat) < q.den * 10 ^ 6 by positivity), div_le_div_iff₀ (by positivity) (by positivity)]
    have h2 : (2 : Rat) * |(((n : Int) * (q.den : Nat) - ((m * 10 ^ 6 : Nat) : Int) : Int) : Rat)| ≤ q.den := by
      unfold dist at hr
      rw [← Int.cast_abs, Int.abs_eq_natAbs]
      exact_mod_cast hr
    generalize |(((n : Int) * (q.den : Nat) - ((m * 10 ^ 6 : Nat) : Int) : Int) : Rat)| = x at *
    linarith
  by_cases hq : q < 0
  · refine ⟨-n, ?_, ?_⟩
    · rw [show (((-(n : Int)) : Int) : Rat) / 10 ^ 6 = -((n : Rat) / 10 ^ 6) by push_cast; ring]
      simpa [hq] using ht
    · rw [abs_of_neg hq] at hd
      rw [show q - (((-(n : Int)) : Int) : Rat) / 10 ^ 6 = -(-q - n / 10 ^ 6) by push_cast; ring, abs_neg]
      exact hd
  · refine ⟨n, by simpa [hq] using ht, ?_⟩
    rw [abs_of_nonneg (not_lt.1 hq)] at hd
    simpa using hd

theorem shows_exact {t : Str} {q : Rat} (h : ShowsNear t q) (hq : WholeMillionths q) : DecimalText t q := by
  obtain ⟨j, hj, hd⟩ := h
  obtain ⟨k, rfl⟩ := hq
  have : j = k := by
    rw [← sub_div, abs_div, abs_of_pos (show (0 : Rat) < 10 ^ 6 by positivity), div_le_div_iff₀ (by positivity) (by positivity),
      ← Int.cast_sub, ← Int.cast_abs] at hd
    have h1 : (((|k - j| : Int)) : Rat) * 2 ≤ 1 := by linarith
    have h2 : |k - j| * 2 ≤ 1 := by exact_mod_cast h1
    have h3 := abs_nonneg (k - j)
    have h4 : |k - j| = 0 := by omega
    rw [abs_eq_zero] at h4
    omega
  rw [← this]
  exact hj

/-- C100: for an integer with an adaptation `showProperties` ends with its type, its offset in decimal and its slope, each
number within half a millionth, and for a logarithmic one its base and floor. -/
theorem C100_adaptation {root : Elem} (docs : Pos → ElemTexts) {path : Str} {p : Pos} {e : Elem} {t : IntType}
    (hl : root.locate path = some p) (he : root.at? p = some e) (hk : e.kind = .scalar (.int t)) {a : Adaptation}
    (ha : (docs p).adaptation = some a.shownLines) :
    ∃ before num den after, root.showProperties docs path = .ok (Lines (before ++ [s "Adaptation:",
        s " - Type: " ++ (if a.log = none then s "Linear" else s "Logarithmic"), s " - Offset: " ++ intText a.off,
        s " - SlopeNumerator: " ++ num, s " - SlopeDenominator: " ++ den] ++ after)) ∧
      ShowsNear num a.num ∧ ShowsNear den a.den ∧
      (a.log = none → after = []) ∧
      (∀ base floor, a.log = some (.fin base, floor) → ∃ b f, after = [s " - LogarithmBase: " ++ b, s " - FloorValue: " ++ f] ∧
        ShowsNear b base ∧ (match floor with
          | .fin q => ShowsNear f q
          | .notFinite => f = s "-inf")) := by
  obtain ⟨ls, h1, h2⟩ := C100_properties docs hl he
  rw [hk] at h1
  obtain ⟨vs, ⟨lo, hi, rfl, -⟩, rfl⟩ := h1
  rw [ha] at h2
  refine ⟨Heading e.kind.text (docs p) e.footprint ++ (Labelled (s "Unit: ") (docs p).unit ++
    [s "Scalar size: " ++ natText (ScalarType.int t).size ++ s " byte(s) "] ++
      [s "Signed: " ++ (if t.signed then s "yes" else s "no"), s "Min: " ++ lo, s "Max: " ++ hi]),
    ratFixed a.num, ratFixed a.den, (match a.log with
      | none => []
      | some (base, floor) => [s " - LogarithmBase: " ++ base.fixed, s " - FloorValue: " ++ floor.fixed]), ?_,
    ratFixed_shows _, ratFixed_shows _, ?_, ?_⟩
  · rw [h2]
    unfold Adaptation.shownLines
    cases a.log <;> simp only [List.append_assoc, List.cons_append, List.nil_append, Option.isSome, if_true, if_false,
      Bool.false_eq_true, reduceCtorEq]
  · intro h; rw [h]
  · intro base floor h
    rw [h]
    refine ⟨_, _, rfl, ratFixed_shows _, ?_⟩
    cases floor with
    | fin q => exact ratFixed_shows q
    | notFinite => rfl

/-- C100: linear adaptations whose slopes are whole millionths are the same when they show the same lines: what is missing is
the same for other slopes, for which it does not hold (`C100_slope_hidden`). -/
theorem C100_adaptation_exact_partial {a b : Adaptation} (ha : a.log = none) (hb : b.log = none)
    (h1 : WholeMillionths a.num) (h2 : WholeMillionths a.den) (h3 : WholeMillionths b.num) (h4 : WholeMillionths b.den)
    (h : a.shownLines = b.shownLines) : a = b := by
  obtain ⟨an, ad, ao, al⟩ := a
  obtain ⟨bn, bd, bo, bl⟩ := b
  simp only at ha hb h1 h2 h3 h4
  subst ha hb
  simp only [Adaptation.shownLines, Option.isSome, List.append_nil, List.cons.injEq, List.append_cancel_left_eq, and_true,
    true_and] at h
  obtain ⟨g1, g2, g3⟩ := h
  have same : ∀ x y : Rat, WholeMillionths x → WholeMillionths y → ratFixed x = ratFixed y → x = y := by
    intro x y hx hy hxy
    have e1 := (shows_exact (ratFixed_shows x) hx).value
    have e2 := (shows_exact (ratFixed_shows y) hy).value
    rw [← e1, ← e2, hxy]
  have ho : ao = bo := (plainInt_intText ao).unique (g1 ▸ plainInt_intText bo)
  rw [same _ _ h1 h3 g2, same _ _ h2 h4 g3, ho]

/-- A slope of 0.1 shown, with an offset, and the lines of a logarithmic adaptation that keeps the default floor. -/
example : (⟨1, 10, -7, none⟩ : Adaptation).shownLines =
      [s " - Type: Linear", s " - Offset: -7", s " - SlopeNumerator: 1.000000", s " - SlopeDenominator: 10.000000"] ∧
    (⟨-3 / 2, 1, 0, some (.fin 2, .notFinite)⟩ : Adaptation).shownLines =
      [s " - Type: Logarithmic", s " - Offset: 0", s " - SlopeNumerator: -1.500000", s " - SlopeDenominator: 1.000000",
        s " - LogarithmBase: 2.000000", s " - FloorValue: -inf"] ∧
    WholeMillionths (-3 / 2) := by
  refine ⟨by decide +kernel, by decide +kernel, -1500000, by norm_num⟩

namespace Sample

/-- The sample with an adaptation of the short integer. -/
def adaptedDocs : Pos → ElemTexts
  | [0, 1] => ⟨[], s "Volume", s "dB", some (⟨1, 10, -7, none⟩ : Adaptation).shownLines⟩
  | _ => ⟨[], [], [], none⟩

example : shown.showProperties adaptedDocs (s "/Sys/sub/level") = .ok (s
    "Kind: IntegerParameter\nTotal size: 2 byte(s)\nDescription: Volume\nUnit: dB\nScalar size: 2 byte(s) \nSigned: yes\nMin: -10\nMax: 300\nAdaptation:\n - Type: Linear\n - Offset: -7\n - SlopeNumerator: 1.000000\n - SlopeDenominator: 10.000000\n") := by
  decide +kernel

end Sample

/-- C100: adaptations can show the same lines and convert the same number differently, as slopes below half a millionth are
all shown as zero. -/
theorem C100_slope_hidden : ∃ a b : Adaptation, a.den ≠ 0 ∧ b.den ≠ 0 ∧ a.shownLines = b.shownLines ∧ ∀ lm,
    a.fromUser lm (.fin (2 ^ 24)) = .ok 1 ∧ b.fromUser lm (.fin (2 ^ 24)) = .ok 4 :=
  ⟨⟨1 / 2 ^ 24, 1, 0, none⟩, ⟨1 / 2 ^ 22, 1, 0, none⟩, by decide +kernel, by decide +kernel, by decide +kernel, fun _ =>
    ⟨by simp only [Adaptation.fromUser]; decide +kernel, by simp only [Adaptation.fromUser]; decide +kernel⟩⟩

end PF
