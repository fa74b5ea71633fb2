import Verif.Lemmas.Float32

/-! Helper lemmas about the text of single-precision numbers. -/

namespace PF
open Spec

/-! ### Digits -/

theorem digitsVal_snoc {t : Str} {n d : Nat} {c : Char} (h : digitsVal 10 0 t = some n) (hc : IsDigit 10 c d) :
    digitsVal 10 0 (t ++ [c]) = some (n * 10 + d) := by
  rw [digitsVal_append, h]
  simp [digitsVal, digitVal_of_isDigit hc]

theorem numeral_of_digits {t : Str} {n : Nat} (h : digitsVal 10 0 t = some n) (hne : t ≠ []) : Numeral 10 t n :=
  numeral_of_parseNat (by unfold parseNat; rw [if_neg hne]; exact h)

theorem digitsVal_fracDigits (m n : Nat) : digitsVal 10 0 (fracDigits m n) = some (n % 10 ^ m) := by
  induction m generalizing n with
  | zero => simp [fracDigits, digitsVal, Nat.mod_one]
  | succ m ih =>
    rw [fracDigits, digitsVal_snoc (ih (n / 10)) (isDigit_digitChar (by decide) (Nat.mod_lt n (by decide)))]
    rw [Nat.pow_succ, Nat.mul_comm (10 ^ m), Nat.mod_mul]
    congr 1
    omega

theorem fracDigits_length (m n : Nat) : (fracDigits m n).length = m := by
  induction m generalizing n with
  | zero => rfl
  | succ m ih => rw [fracDigits, List.length_append, ih]; rfl

theorem fracDigits_add (a b n : Nat) : fracDigits (a + b) n = fracDigits a (n / 10 ^ b) ++ fracDigits b n := by
  induction b generalizing n with
  | zero => simp [fracDigits]
  | succ b ih =>
    rw [← Nat.add_assoc, fracDigits, ih, fracDigits, Nat.div_div_eq_div_mul, Nat.pow_succ, Nat.mul_comm 10,
      List.append_assoc]

theorem digitsVal_zeros (acc z : Nat) : digitsVal 10 acc (List.replicate z '0') = some (acc * 10 ^ z) := by
  induction z generalizing acc with
  | zero => simp [digitsVal]
  | succ z ih =>
    rw [List.replicate_succ, digitsVal]
    rw [show digitVal 10 '0' = some 0 by decide]
    simp only
    rw [ih, Nat.pow_succ]
    congr 1
    ring

theorem dropWhile_zeros (t : Str) :
    ∃ z, t = List.replicate z '0' ++ t.dropWhile (· = '0') := by
  induction t with
  | nil => exact ⟨0, rfl⟩
  | cons c t ih =>
    by_cases hc : c = '0'
    · obtain ⟨z, hz⟩ := ih
      refine ⟨z + 1, ?_⟩
      rw [List.replicate_succ, List.cons_append, List.dropWhile_cons_of_pos (by simp [hc]), ← hz, hc]
    · exact ⟨0, by rw [List.dropWhile_cons_of_neg (by simp [hc])]; rfl⟩

theorem dropZeros_eq (t : Str) : ∃ z, t = dropZeros t ++ List.replicate z '0' := by
  obtain ⟨z, hz⟩ := dropWhile_zeros t.reverse
  refine ⟨z, ?_⟩
  unfold dropZeros
  have := congrArg List.reverse hz
  rw [List.reverse_reverse, List.reverse_append, List.reverse_replicate] at this
  exact this

/-- Signs in front of a decimal text. -/
theorem decimalText_point (neg : Bool) {ip t : Str} {n m : Nat} (hi : Numeral 10 ip n)
    (ht : digitsVal 10 0 t = some m) :
    DecimalText ((if neg then ['-'] else []) ++ ip ++ pointPart t)
      ((if neg then -1 else 1) * ((n : Rat) + (m : Rat) / 10 ^ t.length)) := by
  obtain ⟨z, hz⟩ := dropZeros_eq t
  have hlen : t.length = (dropZeros t).length + z := by
    conv_lhs => rw [hz]
    simp
  obtain ⟨m', hm', rfl⟩ : ∃ m', digitsVal 10 0 (dropZeros t) = some m' ∧ m = m' * 10 ^ z := by
    rw [hz, digitsVal_append] at ht
    cases hd : digitsVal 10 0 (dropZeros t) with
    | none => rw [hd] at ht; simp at ht
    | some m' =>
      rw [hd] at ht
      simp only [Option.bind_some, digitsVal_zeros, Option.some.injEq] at ht
      exact ⟨m', rfl, ht.symm⟩
  have hval : ((m' * 10 ^ z : Nat) : Rat) / 10 ^ t.length = (m' : Rat) / ((10 ^ (dropZeros t).length : Nat) : Rat) := by
    rw [hlen, pow_add]
    push_cast
    field_simp
  rw [hval]
  unfold pointPart
  by_cases he : dropZeros t = []
  · rw [if_pos he]
    rw [he] at hm'
    simp [digitsVal] at hm'
    subst hm'
    cases neg
    · simpa using DecimalText.int hi
    · simpa using DecimalText.negInt hi
  · rw [if_neg he]
    have hn := numeral_of_digits hm' he
    cases neg
    · simpa using DecimalText.frac hi hn
    · simpa using DecimalText.negFrac hi hn

theorem expText_numeral (x : Int) : ∃ u, Numeral 10 u x.natAbs ∧
    expText x = (if x < 0 then '-' else '+') :: u := by
  unfold expText
  have h := numeral_natText x.natAbs
  by_cases h10 : x.natAbs < 10
  · refine ⟨'0' :: natText x.natAbs, ?_, ?_⟩
    · refine numeral_of_digits ?_ (by simp)
      rw [digitsVal, show digitVal 10 '0' = some 0 by decide]
      have := parseNat_of_numeral h
      unfold parseNat at this
      rw [if_neg h.chars.1] at this
      exact this
    · rw [if_pos h10]; split <;> rfl
  · refine ⟨natText x.natAbs, h, ?_⟩
    rw [if_neg h10]; split <;> rfl

/-! ### The decimal exponent -/

theorem search_spec (a P : Nat) (h0 : P ≤ a) : ∀ m, a < 10 ^ m * P →
    10 ^ (((List.range m).reverse.find? fun i => decide (10 ^ i * P ≤ a)).getD 0) * P ≤ a ∧
    a < 10 ^ (((List.range m).reverse.find? fun i => decide (10 ^ i * P ≤ a)).getD 0 + 1) * P := by
  intro m
  induction m with
  | zero => intro h; rw [Nat.pow_zero, Nat.one_mul] at h; omega
  | succ m ih =>
    intro h
    rw [List.range_succ, List.reverse_append, List.reverse_singleton, List.singleton_append, List.find?_cons]
    by_cases hc : 10 ^ m * P ≤ a
    · rw [decide_eq_true hc]
      exact ⟨hc, h⟩
    · rw [decide_eq_false hc]
      exact ih (by omega)

theorem decExp_spec {n : Nat} (h0 : n ≠ 0) (hle : n ≤ f32MaxUnits) :
    10 ^ decExp n * 2 ^ 149 ≤ n * 10 ^ 45 ∧ n * 10 ^ 45 < 10 ^ (decExp n + 1) * 2 ^ 149 := by
  refine search_spec (n * 10 ^ 45) (2 ^ 149) ?_ 84 ?_
  · have h1 : (2 ^ 149 : Nat) ≤ 10 ^ 45 := by decide +kernel
    exact Nat.le_trans h1 (Nat.le_mul_of_pos_left _ (Nat.pos_of_ne_zero h0))
  · have h4 : f32MaxUnits * 10 ^ 45 < 10 ^ 84 * 2 ^ 149 := by decide +kernel
    exact Nat.lt_of_le_of_lt (Nat.mul_le_mul_right _ hle) h4

theorem roundEven_half (a : Nat) {b : Nat} (hb : 0 < b) : 2 * dist a b (roundEven a b) ≤ b := by
  have e := Nat.div_add_mod a b
  have hm := Nat.mod_lt a hb
  have hN1 := (roundEven_nearest a hb (a / b)).1
  have hN2 := (roundEven_nearest a hb (a / b + 1)).1
  generalize dist a b (roundEven a b) = r at *
  unfold dist at hN1 hN2
  have e1 : ((a / b : Nat) : Int) * b = ((b * (a / b) : Nat) : Int) := by push_cast; ring
  have e2 : ((a / b + 1 : Nat) : Int) * b = ((b * (a / b) + b : Nat) : Int) := by push_cast; ring
  rw [e1] at hN1
  rw [e2] at hN2
  generalize b * (a / b) = z at *
  omega

/-- The carry of the rounding. -/
def carried (d x : Nat) : Nat × Nat := if d = 10 ^ 6 then (10 ^ 5, x + 1) else (d, x)

theorem sixDigits_eq (n : Nat) :
    sixDigits n = carried (roundEven (n * 10 ^ 50) (10 ^ decExp n * 2 ^ 149)) (decExp n) := rfl

theorem carried_spec {n x P : Nat} (hP : 0 < P) (h1 : 10 ^ x * P ≤ n * 10 ^ 45)
    (h2 : n * 10 ^ 45 < 10 ^ (x + 1) * P) :
    10 ^ 5 ≤ (carried (roundEven (n * 10 ^ 50) (10 ^ x * P)) x).1 ∧
    (carried (roundEven (n * 10 ^ 50) (10 ^ x * P)) x).1 < 10 ^ 6 ∧
    2 * dist (n * 10 ^ 50) (10 ^ (carried (roundEven (n * 10 ^ 50) (10 ^ x * P)) x).2 * P)
      (carried (roundEven (n * 10 ^ 50) (10 ^ x * P)) x).1 ≤
        10 ^ (carried (roundEven (n * 10 ^ 50) (10 ^ x * P)) x).2 * P := by
  have hb : 0 < 10 ^ x * P := by positivity
  have h2' : n * 10 ^ 45 < 10 * (10 ^ x * P) := by
    rwa [show 10 ^ (x + 1) * P = 10 * (10 ^ x * P) by rw [Nat.pow_succ]; ring] at h2
  have e50 : n * 10 ^ 50 = 10 ^ 5 * (n * 10 ^ 45) := by
    rw [show (50 : Nat) = 5 + 45 from rfl, Nat.pow_add]; ring
  have hlo : 10 ^ 5 ≤ n * 10 ^ 50 / (10 ^ x * P) := by
    rw [Nat.le_div_iff_mul_le hb, e50]
    exact Nat.mul_le_mul_left _ h1
  have hhi : n * 10 ^ 50 / (10 ^ x * P) < 10 ^ 6 := by
    rw [Nat.div_lt_iff_lt_mul hb, e50, show (10 : Nat) ^ 6 = 10 ^ 5 * 10 from rfl, Nat.mul_assoc]
    exact Nat.mul_lt_mul_of_pos_left h2' (by decide)
  have hd := roundEven_half (n * 10 ^ 50) hb
  have hbd := roundEven_bounds (n * 10 ^ 50) (b := 10 ^ x * P)
  generalize roundEven (n * 10 ^ 50) (10 ^ x * P) = r at hd hbd ⊢
  unfold carried
  by_cases hc : r = 10 ^ 6
  · rw [if_pos hc]
    refine ⟨Nat.le_refl _, by show 10 ^ 5 < 10 ^ 6; decide, ?_⟩
    subst hc
    have e3 : dist (n * 10 ^ 50) (10 ^ (x + 1) * P) (10 ^ 5) = dist (n * 10 ^ 50) (10 ^ x * P) (10 ^ 6) := by
      unfold dist
      congr 2
      push_cast
      rw [pow_succ]
      ring
    show 2 * dist (n * 10 ^ 50) (10 ^ (x + 1) * P) (10 ^ 5) ≤ 10 ^ (x + 1) * P
    rw [e3]
    refine Nat.le_trans hd (Nat.mul_le_mul_right _ (Nat.pow_le_pow_right (by decide) (by omega)))
  · rw [if_neg hc]
    exact ⟨Nat.le_trans hlo hbd.1, by show r < 10 ^ 6; omega, hd⟩

/-- The six digits of a number and their error. -/
theorem sixDigits_spec {n : Nat} (h0 : n ≠ 0) (hle : n ≤ f32MaxUnits) :
    10 ^ 5 ≤ (sixDigits n).1 ∧ (sixDigits n).1 < 10 ^ 6 ∧
    2 * dist (n * 10 ^ 50) (10 ^ (sixDigits n).2 * 2 ^ 149) (sixDigits n).1 ≤ 10 ^ (sixDigits n).2 * 2 ^ 149 := by
  obtain ⟨h1, h2⟩ := decExp_spec h0 hle
  rw [sixDigits_eq]
  exact carried_spec (by positivity) h1 h2

/-- The error of six digits, in the terms of the specification. -/
theorem six_error {n d X P : Nat} (hP : 0 < P) (h : 2 * dist (n * 10 ^ 50) (10 ^ X * P) d ≤ 10 ^ X * P) :
    |(n : Rat) / P - d * (10 ^ X / 10 ^ 50)| ≤ 10 ^ X / 10 ^ 50 / 2 := by
  have hP' : (0 : Rat) < P := by exact_mod_cast hP
  have e : (n : Rat) / P - d * (10 ^ X / 10 ^ 50) =
      -(((d * ((10 ^ X * P : Nat) : Int) - ((n * 10 ^ 50 : Nat) : Int) : Int) : Rat)) / (10 ^ 50 * P) := by
    push_cast
    field_simp
    ring
  rw [e, abs_div, abs_neg, abs_of_pos (show (0 : Rat) < 10 ^ 50 * P by positivity)]
  have hq : 2 * |((d * ((10 ^ X * P : Nat) : Int) - ((n * 10 ^ 50 : Nat) : Int) : Int) : Rat)| ≤ 10 ^ X * P := by
    unfold dist at h
    rw [← Int.cast_abs, Int.abs_eq_natAbs]
    exact_mod_cast h
  rw [div_le_div_iff₀ (by positivity) (by positivity)]
  generalize |((d * ((10 ^ X * P : Nat) : Int) - ((n * 10 ^ 50 : Nat) : Int) : Int) : Rat)| = y at *
  rw [show (10 : Rat) ^ X / 10 ^ 50 * (10 ^ 50 * P) = 10 ^ X * P by field_simp]
  linarith

/-! ### The text -/

/-- The three formats of six digits. -/
theorem digits_text (neg : Bool) {d : Nat} (hd1 : 10 ^ 5 ≤ d) (hd2 : d < 10 ^ 6) (x : Int) :
    RealText
      (if x < -4 ∨ x ≥ 6 then
        (if neg then ['-'] else []) ++ (fracDigits 6 d).take 1 ++ pointPart ((fracDigits 6 d).drop 1) ++ 'e' :: expText x
      else if x < 0 then
        (if neg then ['-'] else []) ++ '0' :: pointPart (List.replicate (x.natAbs - 1) '0' ++ fracDigits 6 d)
      else
        (if neg then ['-'] else []) ++ (fracDigits 6 d).take (x.toNat + 1) ++ pointPart ((fracDigits 6 d).drop (x.toNat + 1)))
      ((if neg then -1 else 1) * ((d : Rat) * (10 : Rat) ^ (x - 5))) := by
  have h10 : (10 : Rat) ≠ 0 := by norm_num
  have hdm : ∀ k, ((d / 10 ^ k : Nat) : Rat) + ((d % 10 ^ k : Nat) : Rat) / 10 ^ k = (d : Rat) / 10 ^ k := by
    intro k
    have e : ((10 ^ k : Nat) : Rat) * ((d / 10 ^ k : Nat) : Rat) + ((d % 10 ^ k : Nat) : Rat) = d := by
      exact_mod_cast Nat.div_add_mod d (10 ^ k)
    push_cast at e
    rw [← e]
    field_simp
  by_cases hr : x < -4 ∨ x ≥ 6
  · rw [if_pos hr]
    have e6 : fracDigits 6 d = fracDigits 1 (d / 10 ^ 5) ++ fracDigits 5 d := fracDigits_add 1 5 d
    have ht : (fracDigits 6 d).take 1 = fracDigits 1 (d / 10 ^ 5) := by
      rw [e6, List.take_left' (fracDigits_length ..)]
    have hdr : (fracDigits 6 d).drop 1 = fracDigits 5 d := by
      rw [e6, List.drop_left' (fracDigits_length ..)]
    rw [ht, hdr]
    have hn : Numeral 10 (fracDigits 1 (d / 10 ^ 5)) (d / 10 ^ 5) :=
      (numeral_fracDigits 0 _ (by omega)).1
    have hdt := decimalText_point neg hn (digitsVal_fracDigits 5 d)
    rw [fracDigits_length, hdm] at hdt
    obtain ⟨u, hu, he⟩ := expText_numeral x
    rw [he]
    by_cases hneg : x < 0
    · rw [if_pos hneg]
      have := RealText.negExp hdt hu
      convert this using 1
      have : x - 5 = -((x.natAbs : Int)) - 5 := by omega
      rw [this, zpow_sub₀ h10, zpow_neg, zpow_natCast, show (10 : Rat) ^ (5 : Int) = 10 ^ 5 by norm_cast]
      generalize (if neg = true then (-1 : Rat) else 1) = sg
      field_simp
    · rw [if_neg hneg]
      have := RealText.exp hdt hu
      convert this using 1
      have : x - 5 = ((x.natAbs : Int)) - 5 := by omega
      rw [this, zpow_sub₀ h10, zpow_natCast, show (10 : Rat) ^ (5 : Int) = 10 ^ 5 by norm_cast]
      generalize (if neg = true then (-1 : Rat) else 1) = sg
      field_simp
  · rw [if_neg hr]
    by_cases hneg : x < 0
    · rw [if_pos hneg]
      have hz : Numeral 10 ['0'] 0 := .single ⟨by decide, by decide⟩
      have hdv : digitsVal 10 0 (List.replicate (x.natAbs - 1) '0' ++ fracDigits 6 d) = some (d % 10 ^ 6) := by
        rw [digitsVal_append, digitsVal_zeros]
        simp only [Nat.zero_mul, Option.bind_some]
        exact digitsVal_fracDigits 6 d
      have hdt := decimalText_point neg hz hdv
      rw [List.length_append, List.length_replicate, fracDigits_length, Nat.mod_eq_of_lt hd2] at hdt
      have := RealText.plain hdt
      convert this using 1
      · simp
      · have : x - 5 = -(((x.natAbs - 1 + 6 : Nat)) : Int) := by omega
        rw [this, zpow_neg, zpow_natCast]
        simp
        field_simp
    · rw [if_neg hneg]
      obtain ⟨k, hk, hk5⟩ : ∃ k : Nat, x = k ∧ k ≤ 5 := ⟨x.toNat, by omega, by omega⟩
      subst hk
      rw [Int.toNat_natCast]
      have e6 : fracDigits 6 d = fracDigits (k + 1) (d / 10 ^ (5 - k)) ++ fracDigits (5 - k) d := by
        have := fracDigits_add (k + 1) (5 - k) d
        rwa [show k + 1 + (5 - k) = 6 by omega] at this
      have ht : (fracDigits 6 d).take (k + 1) = fracDigits (k + 1) (d / 10 ^ (5 - k)) := by
        rw [e6, List.take_left' (fracDigits_length ..)]
      have hdr : (fracDigits 6 d).drop (k + 1) = fracDigits (5 - k) d := by
        rw [e6, List.drop_left' (fracDigits_length ..)]
      rw [ht, hdr]
      have hn : Numeral 10 (fracDigits (k + 1) (d / 10 ^ (5 - k))) (d / 10 ^ (5 - k)) := by
        refine (numeral_fracDigits k _ ?_).1
        rw [Nat.div_lt_iff_lt_mul (by positivity), ← Nat.pow_add, show k + 1 + (5 - k) = 6 by omega]
        exact hd2
      have hdt := decimalText_point neg hn (digitsVal_fracDigits (5 - k) d)
      rw [fracDigits_length, hdm] at hdt
      have := RealText.plain hdt
      convert this using 1
      have : (k : Int) - 5 = -((5 - k : Nat) : Int) := by omega
      rw [this, zpow_neg, zpow_natCast]
      field_simp

theorem f32Text_real {v : BitVec 32} (hf : f32Finite v = true) :
    ∃ q, RealText (f32Text v) q ∧ SixDigits (f32Val v) q := by
  unfold f32Text
  simp only [hf, Bool.not_true, Bool.false_eq_true, if_false]
  by_cases h0 : f32Mag v = 0
  · rw [if_pos h0]
    have hv : f32Val v = 0 := by
      rw [f32Val_eq, show f32Units v = 0 by have := f32Units_natAbs v; omega]; simp
    have hz : Numeral 10 (s "0") 0 := .single ⟨by decide, by decide⟩
    have := decimalText_point v.msb hz (t := []) (m := 0) rfl
    refine ⟨_, .plain (t := _) ?_, .inl ⟨hv, rfl⟩⟩
    have e : pointPart [] = [] := rfl
    rw [e, List.append_nil] at this
    simpa using this
  · rw [if_neg h0]
    obtain ⟨hd1, hd2, hd3⟩ := sixDigits_spec h0 (f32Mag_le hf)
    generalize (sixDigits (f32Mag v)).1 = d at *
    generalize (sixDigits (f32Mag v)).2 = X at *
    -- the value that the text stands for
    refine ⟨(if v.msb then -1 else 1) * ((d : Rat) * (10 : Rat) ^ ((X : Int) - 50)), ?_, .inr ?_⟩
    · obtain ⟨x, hx⟩ : ∃ x : Int, x = (X : Int) - 45 := ⟨_, rfl⟩
      rw [← hx, show (X : Int) - 50 = x - 5 by omega]
      exact digits_text v.msb hd1 hd2 x
    · refine ⟨if v.msb then -(d : Int) else d, (X : Int) - 50, ?_, ?_, ?_, ?_⟩
      · split <;> simp <;> omega
      · split <;> simp <;> omega
      · split <;> push_cast <;> ring
      · have hval : f32Val v = (if v.msb then -1 else 1) * ((f32Mag v : Rat) / 2 ^ 149) := by
          rw [f32Val_eq]; unfold f32Units; split <;> push_cast <;> ring
        have h10 : (10 : Rat) ≠ 0 := by norm_num
        have hz : (10 : Rat) ^ ((X : Int) - 50) = 10 ^ X / 10 ^ 50 := by
          rw [zpow_sub₀ h10, zpow_natCast]; norm_cast
        have he := six_error (n := f32Mag v) (P := 2 ^ 149) (by positivity) hd3
        push_cast at he
        have hif : ((if v.msb = true then -1 else 1) * ((f32Mag v : Rat) / 2 ^ 149) -
            (if v.msb = true then -1 else 1) * ((d : Rat) * (10 ^ X / 10 ^ 50))) =
            (if v.msb = true then -1 else 1) * ((f32Mag v : Rat) / 2 ^ 149 - (d : Rat) * (10 ^ X / 10 ^ 50)) := by
          ring
        rw [hval, hz, hif, abs_mul, show |(if v.msb = true then (-1 : Rat) else 1)| = 1 by split <;> simp, one_mul]
        exact he

end PF
