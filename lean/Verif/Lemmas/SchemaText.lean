import Verif.Spec.Schema
import Verif.Lemmas.Numeric
import Verif.Lemmas.Float32Text
import Verif.Lemmas.FloatingPoint

/-! Helper lemmas: the texts of values match the patterns of the schemas. -/

namespace PF
open Spec Spec.Rx

theorem Spec.Rx.Matches.cons {a b : Rx} {c : Char} {t : Str} (h : Matches a [c]) (k : Matches b t) : Matches (.seq a b) (c :: t) :=
  .seq (t := [c]) h k

theorem Spec.Rx.matches_oneOf {cs : List Char} {c : Char} (h : c ∈ cs) : Matches (oneOf cs) [c] := .set (by simpa using h)

theorem Spec.Rx.matches_lit (t : Str) : Matches (lit t) t := by
  induction t with
  | nil => exact .eps
  | cons c t ih => exact .cons (matches_oneOf (by simp)) ih

theorem Spec.Rx.matches_star_set {p : Char → Bool} {t : Str} (h : ∀ c ∈ t, p c = true) : Matches (.star (.set p)) t := by
  induction t with
  | nil => exact .nil
  | cons c t ih => exact .more (t := [c]) (.set (h c (by simp))) (ih fun d hd => h d (by simp [hd]))

theorem Spec.Rx.matches_plus_set {p : Char → Bool} {t : Str} (hn : t ≠ []) (h : ∀ c ∈ t, p c = true) :
    Matches (plus (.set p)) t := by
  cases t with
  | nil => exact absurd rfl hn
  | cons c t => exact .cons (.set (h c (by simp))) (matches_star_set fun d hd => h d (by simp [hd]))

theorem isDigit_decimal {c : Char} {d : Nat} (h : IsDigit 10 c d) : decide ('0' ≤ c ∧ c ≤ '9') = true := by
  have key : ∀ p ∈ digitTable, p.2 < 10 → decide ('0' ≤ p.1 ∧ p.1 ≤ '9') = true := by decide
  exact key _ h.2 h.1

theorem isDigit_positive {c : Char} {d : Nat} (h : IsDigit 10 c d) (h0 : c ≠ '0') : decide ('1' ≤ c ∧ c ≤ '9') = true := by
  have key : ∀ p ∈ digitTable, p.2 < 10 → p.1 ≠ '0' → decide ('1' ≤ p.1 ∧ p.1 ≤ '9') = true := by decide
  exact key _ h.2 h.1 h0

theorem isDigit_hexadecimal {c : Char} {d : Nat} (h : IsDigit 16 c d) :
    decide ('0' ≤ c ∧ c ≤ '9' ∨ 'a' ≤ c ∧ c ≤ 'f' ∨ 'A' ≤ c ∧ c ≤ 'F') = true := by
  have key : ∀ p ∈ digitTable, decide ('0' ≤ p.1 ∧ p.1 ≤ '9' ∨ 'a' ≤ p.1 ∧ p.1 ≤ 'f' ∨ 'A' ≤ p.1 ∧ p.1 ≤ 'F') = true := by decide
  exact key _ h.2

theorem Numeral.digits {t : Str} {n : Nat} (h : Numeral 10 t n) : Matches (plus digit) t :=
  matches_plus_set h.chars.1 fun c hc => isDigit_decimal (h.chars.2 c hc).choose_spec

theorem matches_hexText (w n : Nat) : Matches hexadecimal (hexText w n) := by
  obtain ⟨t, h, hn⟩ := numeral_hexText w n
  rw [h]
  exact .seq (t := ['0', 'x']) (matches_lit _) (matches_plus_set hn.chars.1 fun c hc => isDigit_hexadecimal (hn.chars.2 c hc).choose_spec)

/-- A decimal numeral that does not begin with a zero. -/
theorem Numeral.positive {c : Char} {t : Str} {n : Nat} (h : Numeral 10 (c :: t) n) (h0 : c ≠ '0') :
    Matches (.seq Rx.positive (.star digit)) (c :: t) :=
  .cons (.set (isDigit_positive (h.chars.2 c (by simp)).choose_spec h0))
    (matches_star_set fun d hd => isDigit_decimal (h.chars.2 d (by simp [hd])).choose_spec)

/-- The text of a sign. -/
theorem matches_sign (neg : Bool) : Matches sign (if neg then ['-'] else []) := by
  cases neg
  · exact .right .eps
  · exact .left (matches_oneOf (by decide))

theorem natText_zero : natText 0 = ['0'] := by decide

theorem natText_positive {n : Nat} (h : n ≠ 0) : Matches (.seq Rx.positive (.star digit)) (natText n) := by
  obtain ⟨c, r, h1, h2⟩ := natDigits_head (base := 10) (by decide) (by decide) (Nat.pos_of_ne_zero h) (Nat.lt_succ_self n)
  have hn := numeral_natText n
  have e : natText n = c :: r := h1
  rw [e] at hn ⊢
  exact hn.positive h2

theorem matches_intText (n : Int) : Matches integer (intText n) := by
  by_cases h0 : n = 0
  · subst h0
    exact .left (matches_lit ['0'])
  · refine .right ?_
    unfold intText
    have hp := natText_positive (n := n.natAbs) (by omega)
    split
    · exact .seq (t := ['-']) (matches_sign true) hp
    · exact .seq (t := []) (matches_sign false) hp

theorem matches_natText (n : Nat) : Matches integer (natText n) := by
  have := matches_intText n
  rwa [intText, if_neg (by omega), Int.natAbs_natCast] at this

theorem matches_noExp {a : Rx} {e : Rx} {t : Str} (h : Matches a t) : Matches (.seq a (opt e)) t := by
  have := Matches.seq h (.right .eps : Matches (opt e) [])
  rwa [List.append_nil] at this

theorem matches_point_of_integer {t : Str} (h : Matches integer t) : Matches point t := by
  refine matches_noExp ?_
  cases h with
  | left h => exact .left h
  | right h => exact .right (.right (matches_noExp h))

theorem Numeral.fraction {t : Str} {n : Nat} (h : Numeral 10 t n) : Matches Rx.fraction ('.' :: t) :=
  .seq (t := ['.']) (matches_lit _) h.digits

theorem numeral_frac {m n : Nat} (h : m ≠ 0) : Numeral 10 (fracDigits m n) (n % 10 ^ m) :=
  numeral_of_digits (digitsVal_fracDigits m n) (by intro e; have := fracDigits_length m n; rw [e] at this; exact h this.symm)

theorem matches_fixedText (m : Nat) (num : Int) : Matches point (fixedText m num) := by
  unfold fixedText
  simp only
  by_cases hm : m = 0
  · subst hm
    rw [if_pos rfl, List.append_nil, Nat.pow_zero, Nat.div_one]
    refine matches_point_of_integer ?_
    have := matches_intText num
    unfold intText at this
    split at this
    · rename_i h; rw [if_pos h]; exact this
    · rename_i h; rw [if_neg h]; exact this
  · rw [if_neg hm]
    refine matches_noExp ?_
    have hf := (numeral_frac (m := m) (n := num.natAbs % 2 ^ m * 5 ^ m) hm).fraction
    have hs : Matches sign (if num < 0 then ['-'] else []) := by
      have := matches_sign (decide (num < 0))
      simpa using this
    by_cases hz : num.natAbs / 2 ^ m = 0
    · rw [hz, natText_zero, List.append_assoc]
      exact .right (.left (.seq hs (.seq (matches_lit ['0']) hf)))
    · exact .right (.right (.seq (.seq hs (natText_positive hz)) (.left hf)))

/-! ### Floating-point numbers -/

theorem dropZeros_digits {t : Str} {m : Nat} (ht : digitsVal 10 0 t = some m) :
    ∃ m', digitsVal 10 0 (dropZeros t) = some m' := by
  obtain ⟨z, hz⟩ := dropZeros_eq t
  rw [hz, digitsVal_append] at ht
  cases hd : digitsVal 10 0 (dropZeros t) with
  | none => rw [hd] at ht; simp at ht
  | some m' => exact ⟨m', rfl⟩

theorem matches_pointPart {t : Str} {m : Nat} (ht : digitsVal 10 0 t = some m) : Matches (opt Rx.fraction) (pointPart t) := by
  unfold pointPart
  split
  · exact .right .eps
  · rename_i hne
    obtain ⟨m', hm⟩ := dropZeros_digits ht
    exact .left (numeral_of_digits hm hne).fraction

theorem matches_pointPart_some {t : Str} {m : Nat} (ht : digitsVal 10 0 t = some m) (h0 : m ≠ 0) :
    Matches Rx.fraction (pointPart t) := by
  unfold pointPart
  split
  · rename_i he
    obtain ⟨z, hz⟩ := dropZeros_eq t
    rw [hz, he, List.nil_append, digitsVal_zeros] at ht
    simp at ht
    omega
  · rename_i hne
    obtain ⟨m', hm⟩ := dropZeros_digits ht
    exact (numeral_of_digits hm hne).fraction

/-- Digits of a number as long as the number do not begin with a zero. -/
theorem fracDigits_positive {m d : Nat} (h1 : 10 ^ m ≤ d) (h2 : d < 10 ^ (m + 1)) :
    Matches (.seq Rx.positive (.star digit)) (fracDigits (m + 1) d) := by
  have hn : Numeral 10 (fracDigits (m + 1) d) d := by
    have := numeral_frac (m := m + 1) (n := d) (by omega)
    rwa [Nat.mod_eq_of_lt h2] at this
  have e : fracDigits (m + 1) d = digitChar (d / 10 ^ m % 10) :: fracDigits m d := by
    have := fracDigits_add 1 m d
    rw [Nat.add_comm 1 m] at this
    rw [this]
    rfl
  rw [e] at hn ⊢
  refine hn.positive ?_
  have h3 : d / 10 ^ m < 10 := by rw [Nat.div_lt_iff_lt_mul (by positivity), ← Nat.pow_succ']; exact h2
  have h4 : 0 < d / 10 ^ m := Nat.div_pos h1 (by positivity)
  have key : ∀ i : Fin 10, 0 < i.val → digitChar i.val ≠ '0' := by decide
  rw [Nat.mod_eq_of_lt h3]
  exact key ⟨_, h3⟩ h4

theorem matches_digits (neg : Bool) {d : Nat} (hd1 : 10 ^ 5 ≤ d) (hd2 : d < 10 ^ 6) (x : Int) :
    Matches point
      (if x < -4 ∨ x ≥ 6 then
        (if neg then ['-'] else []) ++ (fracDigits 6 d).take 1 ++ pointPart ((fracDigits 6 d).drop 1) ++ 'e' :: expText x
      else if x < 0 then
        (if neg then ['-'] else []) ++ '0' :: pointPart (List.replicate (x.natAbs - 1) '0' ++ fracDigits 6 d)
      else
        (if neg then ['-'] else []) ++ (fracDigits 6 d).take (x.toNat + 1) ++ pointPart ((fracDigits 6 d).drop (x.toNat + 1))) := by
  have parts : ∀ k, k ≤ 5 → (fracDigits 6 d).take (k + 1) = fracDigits (k + 1) (d / 10 ^ (5 - k)) ∧
      (fracDigits 6 d).drop (k + 1) = fracDigits (5 - k) d ∧
      Matches (.seq Rx.positive (.star digit)) (fracDigits (k + 1) (d / 10 ^ (5 - k))) := by
    intro k hk
    have e6 : fracDigits 6 d = fracDigits (k + 1) (d / 10 ^ (5 - k)) ++ fracDigits (5 - k) d := by
      have := fracDigits_add (k + 1) (5 - k) d
      rwa [show k + 1 + (5 - k) = 6 by omega] at this
    refine ⟨by rw [e6, List.take_left' (fracDigits_length ..)], by rw [e6, List.drop_left' (fracDigits_length ..)],
      fracDigits_positive ?_ ?_⟩
    · rw [Nat.le_div_iff_mul_le (by positivity), ← Nat.pow_add, show k + (5 - k) = 5 by omega]
      exact hd1
    · rw [Nat.div_lt_iff_lt_mul (by positivity), ← Nat.pow_add, show k + 1 + (5 - k) = 6 by omega]
      exact hd2
  by_cases hr : x < -4 ∨ x ≥ 6
  · rw [if_pos hr]
    obtain ⟨h1, h2, h3⟩ := parts 0 (by omega)
    rw [show (0 : Nat) + 1 = 1 from rfl] at h1 h2
    rw [h1, h2]
    obtain ⟨u, hu, he⟩ := expText_numeral x
    rw [he]
    refine .seq (.right (.right (.seq (.seq (matches_sign neg) h3) (matches_pointPart (digitsVal_fracDigits _ _))))) (.left ?_)
    refine .cons (matches_oneOf (by decide)) (.cons (.left (matches_oneOf ?_)) hu.digits)
    split <;> decide
  · rw [if_neg hr]
    by_cases hneg : x < 0
    · rw [if_pos hneg]
      have hdv : digitsVal 10 0 (List.replicate (x.natAbs - 1) '0' ++ fracDigits 6 d) = some (d % 10 ^ 6) := by
        rw [digitsVal_append, digitsVal_zeros]
        simp only [Nat.zero_mul, Option.bind_some]
        exact digitsVal_fracDigits 6 d
      refine matches_noExp (.right (.left (.seq (matches_sign neg) (.seq (t := ['0']) (matches_lit _) ?_))))
      refine matches_pointPart_some hdv ?_
      rw [Nat.mod_eq_of_lt hd2]
      omega
    · rw [if_neg hneg]
      obtain ⟨h1, h2, h3⟩ := parts x.toNat (by omega)
      rw [h1, h2]
      exact matches_noExp (.right (.right (.seq (.seq (matches_sign neg) h3) (matches_pointPart (digitsVal_fracDigits _ _)))))

theorem matches_f32Text {v : BitVec 32} (hf : f32Finite v = true) (h0 : v ≠ 0x80000000#32) : Matches point (f32Text v) := by
  unfold f32Text
  simp only [hf, Bool.not_true, Bool.false_eq_true, if_false]
  by_cases hz : f32Mag v = 0
  · rw [if_pos hz]
    have hm : v.msb = false := by
      cases hb : v.msb with
      | false => rfl
      | true =>
        exfalso
        apply h0
        rw [BitVec.msb_eq_decide] at hb
        simp only [decide_eq_true_eq] at hb
        have hlt := v.isLt
        have hzero : f32Exp v = 0 ∧ f32Man v = 0 := by
          unfold f32Mag at hz
          split at hz
          · rename_i h; exact ⟨h, hz⟩
          · exact absurd hz (Nat.mul_ne_zero (by omega) (by positivity))
        unfold f32Exp f32Man at hzero
        apply BitVec.eq_of_toNat_eq
        show v.toNat = 2147483648
        omega
    rw [hm]
    exact matches_point_of_integer (.left (matches_lit ['0']))
  · rw [if_neg hz]
    obtain ⟨hd1, hd2, _⟩ := sixDigits_spec hz (f32Mag_le hf)
    generalize (sixDigits (f32Mag v)).1 = d at *
    generalize ((sixDigits (f32Mag v)).2 : Int) - 45 = x at *
    exact matches_digits v.msb hd1 hd2 x

theorem matches_floatHex {n : Nat} {out : Str} (h : FloatHex n out) (hn : 0x100000 ≤ n) : Matches hexadecimal out := by
  rcases h with ⟨rfl, rfl⟩ | ⟨h0, ds, h1, h2, rfl⟩
  · simp at hn
  · have hl : 6 ≤ ds.length := by
      by_contra hc
      have := h1.lt_pow
      have h5 : 16 ^ ds.length ≤ 16 ^ 5 := Nat.pow_le_pow_right (by decide) (by omega)
      omega
    rw [Nat.sub_eq_zero_of_le hl]
    exact .seq (t := ['0', 'x']) (matches_lit _) (matches_plus_set h1.chars.1 fun c hc => isDigit_hexadecimal (h1.chars.2 c hc).choose_spec)

/-! ### Values -/

/-- The pattern of one value. -/
def ScalarType.rx (ctx : Ctx) : ScalarType → Rx
  | .bool => if (ctx.raw && ctx.hex) = true then .alt (lit ['0', 'x', '0']) (lit ['0', 'x', '1']) else oneOf ['0', '1']
  | .int _ => if (ctx.raw && ctx.hex) = true then hexadecimal else integer
  | .enum _ => .eps
  | .fixed _ => if (ctx.raw && ctx.hex) = true then hexadecimal else point
  | .float _ => if (ctx.raw && ctx.hex) = true then hexadecimal else point

/-- What the schemas want of the text of a parameter. -/
def ScalarType.Content : ScalarType → Str → Prop
  | .bool => BooleanContent
  | .int _ => IntegerContent
  | .enum _ => fun _ => True
  | .fixed _ => PointContent
  | .float _ => PointContent

theorem ScalarType.matches_rx {ctx : Ctx} {v : BitVec 32} {t : ScalarType} (he : ∀ e, t ≠ .enum e)
    (hf : ∀ e, t = .float e → FloatShown ctx v) {w : Str} (h : t.toText ctx v = .ok w) : Matches (t.rx ctx) w := by
  cases t with
  | bool =>
    simp only [ScalarType.toText, Out.ok.injEq] at h
    subst h
    simp only [boolToText, ScalarType.rx]
    by_cases hr : (ctx.raw && ctx.hex) = true
    · simp only [hr, if_true]
      split
      · exact .right (matches_lit ['0', 'x', '1'])
      · exact .left (matches_lit ['0', 'x', '0'])
    · rw [Bool.not_eq_true] at hr
      simp only [hr, Bool.false_eq_true, if_false]
      split
      · exact matches_oneOf (cs := ['0', '1']) (c := '1') (by decide)
      · exact matches_oneOf (cs := ['0', '1']) (c := '0') (by decide)
  | int t =>
    simp only [ScalarType.toText, Out.ok.injEq] at h
    subst h
    simp only [IntType.toText, ScalarType.rx]
    by_cases hr : (ctx.raw && ctx.hex) = true
    · simp only [hr, if_true]; exact matches_hexText ..
    · rw [Bool.not_eq_true] at hr
      simp only [hr, Bool.false_eq_true, if_false]
      split
      · exact matches_intText _
      · exact matches_natText _
  | enum e => exact absurd rfl (he e)
  | fixed t =>
    simp only [ScalarType.toText, Out.ok.injEq] at h
    subst h
    simp only [FixedType.toText, ScalarType.rx]
    cases hr : ctx.raw
    · simp only [Bool.false_eq_true, if_false, Bool.false_and]
      exact matches_fixedText ..
    · cases hh : ctx.hex
      · simp only [if_true, Bool.false_eq_true, if_false, Bool.and_false]
        exact matches_point_of_integer (matches_intText _)
      · simp only [if_true, Bool.and_true]
        exact matches_hexText ..
  | float t =>
    simp only [ScalarType.toText, Out.ok.injEq] at h
    subst h
    obtain ⟨h1, h2⟩ := hf t rfl
    simp only [FloatType.toText, ScalarType.rx]
    cases hr : ctx.raw
    · simp only [Bool.false_eq_true, if_false, Bool.false_and]
      exact matches_f32Text (h1 hr).1 (h1 hr).2
    · cases hh : ctx.hex
      · simp only [if_true, Bool.false_eq_true, if_false, Bool.and_false]
        exact matches_point_of_integer (matches_natText _)
      · simp only [if_true, Bool.and_true]
        exact matches_floatHex (showbaseHex_spec _) (h2 hr hh)

theorem matches_spaced {r : Rx} {ws : List Str} (h : ∀ w ∈ ws, Matches r w) (hne : ws ≠ []) : Matches (spacedList r) (spaced ws) := by
  cases ws with
  | nil => exact absurd rfl hne
  | cons w ws =>
    refine .seq (h w (by simp)) ?_
    have h' : ∀ w ∈ ws, Matches r w := fun v hv => h v (by simp [hv])
    clear h hne
    induction ws with
    | nil => exact .nil
    | cons v vs ih =>
      rw [List.map_cons, List.flatten_cons]
      refine .more ?_ (ih fun u hu => h' u (by simp [hu]))
      refine .seq (t := [' ']) ?_ (h' v (by simp))
      exact matches_plus_set (by simp) (by simp)

theorem matches_spaced_bool {r : Rx} {ws : List Str} (h : ∀ w ∈ ws, Matches r w) (hne : ws ≠ []) :
    Matches (plus (.seq r (.star space))) (spaced ws) := by
  have hsp : Matches (.star space) [' '] := .more (t := [' ']) (u := []) (matches_oneOf (by decide)) .nil
  have item : ∀ {w}, Matches r w → Matches (.seq r (.star space)) (w ++ [' ']) := fun hw => .seq hw hsp
  have last : ∀ {w}, Matches r w → Matches (.seq r (.star space)) w := fun hw => by
    have := Matches.seq hw (.nil : Matches (.star space) [])
    rwa [List.append_nil] at this
  have all : ∀ (ws : List Str) (w : Str), (∀ v ∈ w :: ws, Matches r v) →
      ∃ a b, spaced (w :: ws) = a ++ b ∧ Matches (.seq r (.star space)) a ∧ Matches (.star (.seq r (.star space))) b := by
    intro ws
    induction ws with
    | nil =>
      intro w hw
      exact ⟨w, [], by simp [spaced], last (hw w (by simp)), .nil⟩
    | cons v vs ih =>
      intro w hw
      obtain ⟨a, b, e, ha, hb⟩ := ih v fun u hu => hw u (by simp at hu ⊢; tauto)
      refine ⟨w ++ [' '], a ++ b, ?_, item (hw w (by simp)), .more ha hb⟩
      rw [← e]
      simp [spaced]
  cases ws with
  | nil => exact absurd rfl hne
  | cons w ws =>
    obtain ⟨a, b, e, ha, hb⟩ := all ws w h
    rw [e]
    exact .seq ha hb

theorem ScalarType.content_spaced {ctx : Ctx} {t : ScalarType} {ws : List Str} (hne : ws ≠ [])
    (h : (∀ e, t ≠ .enum e) → ∀ w ∈ ws, Matches (t.rx ctx) w) : t.Content (spaced ws) := by
  cases t with
  | bool =>
    have h := h (by simp)
    simp only [ScalarType.rx] at h
    simp only [ScalarType.Content, BooleanContent]
    split at h
    · exact .inr (matches_spaced_bool h hne)
    · exact .inl (matches_spaced_bool h hne)
  | int t =>
    have h := h (by simp)
    simp only [ScalarType.rx] at h
    simp only [ScalarType.Content, IntegerContent]
    split at h
    · exact .inr (matches_spaced h hne)
    · exact .inl (matches_spaced h hne)
  | enum t => trivial
  | fixed t =>
    have h := h (by simp)
    simp only [ScalarType.rx] at h
    simp only [ScalarType.Content, PointContent]
    split at h
    · exact .inr (matches_spaced h hne)
    · exact .inl (matches_spaced h hne)
  | float t =>
    have h := h (by simp)
    simp only [ScalarType.rx] at h
    simp only [ScalarType.Content, PointContent]
    split at h
    · exact .inr (matches_spaced h hne)
    · exact .inl (matches_spaced h hne)

end PF
