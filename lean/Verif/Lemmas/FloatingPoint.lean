import Verif.Lemmas.Float32Text

/-! Helper lemmas about floating-point parameter types. -/

namespace PF
open Spec

theorem FloatType.inRange_iff (t : FloatType) (v : BitVec 32) : t.inRange v = true ↔ FloatAllows t v := by
  unfold FloatType.inRange FloatAllows
  rw [Bool.and_eq_true, Bool.and_eq_true, decide_eq_true_eq, decide_eq_true_eq, f32Finite_iff, f32Val_le, f32Val_le]
  exact ⟨fun ⟨h1, h2, h3⟩ => ⟨h1, h3, h2⟩, fun ⟨h1, h2, h3⟩ => ⟨h1, h3, h2⟩⟩

theorem f32Max_eq : f32Max = (f32MaxUnits : Rat) / 2 ^ 149 := by
  unfold f32Max f32MaxUnits; norm_num

theorem abs_le_f32Max (num : Int) {b : Nat} (hb : 0 < b) :
    |(num : Rat) / b| ≤ f32Max ↔ num.natAbs * 2 ^ 149 ≤ f32MaxUnits * b := by
  have hb' : (0 : Rat) < b := by exact_mod_cast hb
  rw [f32Max_eq, abs_div, abs_of_pos hb', div_le_div_iff₀ hb' (by positivity), ← Int.cast_abs, Int.abs_eq_natAbs]
  norm_cast

theorem Dbl.le_f32Max (d : Dbl) : |d.val| ≤ f32Max ↔ d.num.natAbs * 2 ^ 149 ≤ f32MaxUnits * 2 ^ d.k :=
  abs_le_f32Max d.num (by positivity)

theorem f32Val_abs_le {v : BitVec 32} (h : F32Finite v) : |f32Val v| ≤ f32Max := by
  have := f32Mag_le ((f32Finite_iff v).2 h)
  rw [f32Val_eq, f32Max_eq, abs_div, abs_of_pos (show (0 : Rat) < 2 ^ 149 by positivity),
    div_le_div_iff_of_pos_right (by positivity), ← Int.cast_abs, Int.abs_eq_natAbs, f32Units_natAbs]
  exact_mod_cast this

theorem Spec.FloatAllows.congr {t : FloatType} {v w : BitVec 32} (h : FloatAllows t v) (hw : F32Finite w)
    (e : f32Val w = f32Val v) : FloatAllows t w := ⟨hw, by rw [e]; exact h.2.1, by rw [e]; exact h.2.2⟩

/-- A double is taken exactly when the nearest number is allowed, and the nearest number is written. -/
theorem FloatType.fromDbl_iff (t : FloatType) (d : Dbl) (v : BitVec 32) :
    t.fromDbl d = some v ↔ |d.val| ≤ f32Max ∧ FloatAllows t v ∧ v = f32OfDbl d := by
  unfold FloatType.fromDbl FloatType.inRangeDbl
  by_cases h : d.num.natAbs * 2 ^ 149 > f32MaxUnits * 2 ^ d.k
  · rw [if_pos h]
    simp only [Bool.false_eq_true, if_false, reduceCtorEq, false_iff]
    rintro ⟨h', -⟩
    have := d.le_f32Max.1 h'
    omega
  · rw [if_neg h]
    have h' := d.le_f32Max.2 (not_lt.1 h)
    by_cases hr : t.inRange (f32OfDbl d) = true
    · rw [if_pos hr, Option.some.injEq]
      exact ⟨fun e => ⟨h', e ▸ (t.inRange_iff _).1 hr, e.symm⟩, fun e => e.2.2.symm⟩
    · rw [if_neg hr]
      simp only [reduceCtorEq, false_iff]
      rintro ⟨-, h2, rfl⟩
      exact hr ((t.inRange_iff _).2 h2)

theorem FloatType.fromDbl_none (t : FloatType) (d : Dbl) :
    t.fromDbl d = none ↔ ¬ (|d.val| ≤ f32Max ∧ ∃ v, Nearest d.val v ∧ FloatAllows t v) := by
  constructor
  · rintro h ⟨h1, v, h2, h3⟩
    have hn := f32OfDbl_nearest (d.le_f32Max.1 h1)
    have := (t.fromDbl_iff d (f32OfDbl d)).2 ⟨h1, FloatAllows.congr h3 hn.finite (hn.val_unique h2), rfl⟩
    rw [h] at this; simp at this
  · intro h
    cases hf : t.fromDbl d with
    | none => rfl
    | some v =>
      obtain ⟨h1, h2, rfl⟩ := (t.fromDbl_iff d v).1 hf
      exact absurd ⟨h1, _, f32OfDbl_nearest (d.le_f32Max.1 h1), h2⟩ h

theorem f32ToDbl_val (v : BitVec 32) : (f32ToDbl v).val = f32Val v := by
  rw [f32Val_eq]
  unfold Dbl.val f32ToDbl
  push_cast
  rfl

/-! ### Texts -/

theorem isHexadecimal_false (text : Str) :
    isHexadecimal text = false ↔ ∀ ds, text ≠ '0' :: 'x' :: ds ∧ text ≠ '0' :: 'X' :: ds := by
  constructor
  · intro h ds
    constructor <;> rintro rfl <;> simp [isHexadecimal] at h
  · intro h
    unfold isHexadecimal
    rw [Bool.or_eq_false_iff, decide_eq_false_iff_not, decide_eq_false_iff_not]
    constructor
    · intro e
      have := List.take_append_drop 2 text
      rw [e] at this
      exact (h _).1 this.symm
    · intro e
      have := List.take_append_drop 2 text
      rw [e] at this
      exact (h _).2 this.symm

theorem FloatType.fromText_raw (t : FloatType) (rd : Reader) (hex : Bool) (text : Str) (v : BitVec 32) :
    t.fromText rd ⟨true, hex⟩ text = some v ↔ Denotes false 32 text v.toNat ∧ FloatAllows t v := by
  have hu : ∀ n : Int, convertTo false 32 text = some n ↔
      ∃ m : Nat, n = m ∧ m < 2 ^ 32 ∧ Denotes false 32 text m := by
    intro n
    rw [convertTo_iff]
    simp only [Bool.false_eq_true, if_false]
    constructor
    · rintro ⟨h, hlt⟩
      rcases h with ⟨m, h, rfl⟩ | ⟨u, m, rfl, h, rfl⟩ | ⟨_, m, h, _⟩ | ⟨u, m, rfl, h, rfl⟩
      · exact ⟨m, rfl, by exact_mod_cast hlt, .dec h⟩
      · exact ⟨m, rfl, by exact_mod_cast hlt, .plus h⟩
      · simp at h
      · exact ⟨m, rfl, by exact_mod_cast hlt, .hexUnsigned rfl h⟩
    · rintro ⟨m, rfl, hlt, h⟩
      refine ⟨?_, by exact_mod_cast hlt⟩
      generalize hn : (m : Int) = n at h
      cases h with
      | dec h => exact .inl ⟨_, h, rfl⟩
      | plus h => exact .inr (.inl ⟨_, _, rfl, h, rfl⟩)
      | minus h => simp at h
      | hexUnsigned _ h => exact .inr (.inr (.inr ⟨_, _, rfl, h, rfl⟩))
      | hexPositive h => simp at h
      | hexNegative h => simp at h
  unfold FloatType.fromText
  simp only [Bool.not_true, Bool.and_false, Bool.false_eq_true, if_false, if_true]
  cases hc : convertTo false 32 text with
  | none =>
    simp only [reduceCtorEq, false_iff]
    rintro ⟨h, -⟩
    have := (hu v.toNat).2 ⟨v.toNat, rfl, v.isLt, h⟩
    rw [hc] at this; simp at this
  | some n =>
    obtain ⟨m, rfl, hlt, hd⟩ := (hu n).1 hc
    have e : (BitVec.ofInt 32 (m : Int)).toNat = m := by
      rw [BitVec.toNat_ofInt]; simp; omega
    have huniq : ∀ w : BitVec 32, Denotes false 32 text w.toNat → w = BitVec.ofInt 32 m := by
      intro w hw
      have := (hu w.toNat).2 ⟨w.toNat, rfl, w.isLt, hw⟩
      rw [hc, Option.some.injEq] at this
      apply BitVec.eq_of_toNat_eq
      rw [e]; exact_mod_cast this.symm
    simp only
    by_cases hf : f32Finite (BitVec.ofInt 32 (m : Int)) = true
    · rw [if_neg (by rw [hf]; simp)]
      by_cases hr : t.inRange (BitVec.ofInt 32 (m : Int)) = true
      · rw [if_pos hr, Option.some.injEq]
        constructor
        · rintro rfl; exact ⟨by rw [e]; exact hd, (t.inRange_iff _).1 hr⟩
        · rintro ⟨h, -⟩; exact (huniq v h).symm
      · rw [if_neg hr]
        simp only [reduceCtorEq, false_iff]
        rintro ⟨h, h'⟩
        rw [huniq v h] at h'
        exact hr ((t.inRange_iff _).2 h')
    · rw [if_pos (by simpa using hf)]
      simp only [reduceCtorEq, false_iff]
      rintro ⟨h, h'⟩
      rw [huniq v h] at h'
      exact hf ((f32Finite_iff _).2 h'.1)

theorem FloatType.fromText_real (t : FloatType) (rd : Reader) (hex : Bool) (text : Str) (v : BitVec 32) :
    t.fromText rd ⟨false, hex⟩ text = some v ↔
      isHexadecimal text = false ∧ rd.flt text = some v ∧ FloatAllows t v := by
  unfold FloatType.fromText
  simp only [Bool.not_false, Bool.and_true, Bool.false_eq_true, if_false]
  cases hx : isHexadecimal text
  · simp only [Bool.false_eq_true, if_false, true_and]
    cases hr : rd.flt text with
    | none => simp
    | some w =>
      simp only [Option.some.injEq]
      by_cases hi : t.inRange w = true
      · rw [if_pos hi, Option.some.injEq]
        exact ⟨fun e => ⟨e, e ▸ (t.inRange_iff w).1 hi⟩, fun h => h.1⟩
      · rw [if_neg hi]
        simp only [reduceCtorEq, false_iff]
        rintro ⟨rfl, h⟩
        exact hi ((t.inRange_iff w).2 h)
  · simp

/-- The text of a number starts with its sign. -/
theorem f32Text_head (v : BitVec 32) : (f32Text v).head? = some '-' ↔ v.msb = true := by
  have hs : ∀ (t : Str), t.head? ≠ some '-' → t ≠ [] →
      (((if v.msb then ['-'] else []) ++ t).head? = some '-' ↔ v.msb = true) := by
    intro t h1 h2
    cases v.msb
    · simp [h1]
    · simp
  unfold f32Text
  simp only
  by_cases hf : f32Finite v = true
  · rw [if_neg (by simp [hf])]
    split
    · exact hs (s "0") (by decide) (by decide)
    · rename_i h0
      have hfin := hf
      obtain ⟨hd1, hd2, -⟩ := sixDigits_spec h0 (f32Mag_le hfin)
      generalize (sixDigits (f32Mag v)).1 = d at *
      have hne : ∀ c ∈ fracDigits 6 d, c ≠ '-' := by
        intro c hc
        have := numeral_of_digits (digitsVal_fracDigits 6 d) (by
          intro h; have := congrArg List.length h; rw [fracDigits_length] at this; simp at this)
        exact (Numeral.noSpecial this c hc).2.1
      have htake : ∀ n, ((fracDigits 6 d).take (n + 1)).head? ≠ some '-' ∧ (fracDigits 6 d).take (n + 1) ≠ [] := by
        intro n
        have hl := fracDigits_length 6 d
        cases hfd : fracDigits 6 d with
        | nil => rw [hfd] at hl; simp at hl
        | cons c cs =>
          have := hne c (by rw [hfd]; simp)
          simp [this]
      split
      · rw [List.append_assoc, List.append_assoc]
        refine hs _ ?_ (by simp [(htake 0).2])
        rw [List.head?_append_of_ne_nil _ (htake 0).2]; exact (htake 0).1
      · split
        · exact hs _ (by simp) (by simp)
        · rw [List.append_assoc]
          refine hs _ ?_ (by simp [(htake _).2])
          rw [List.head?_append_of_ne_nil _ (htake _).2]; exact (htake _).1
  · rw [if_pos (by simpa using hf)]
    by_cases h0 : f32Man v = 0
    · rw [if_pos h0]; exact hs (s "inf") (by decide) (by decide)
    · rw [if_neg h0]; exact hs (s "nan") (by decide) (by decide)

theorem Numeral.lower {base : Nat} {t : Str} {n : Nat} (h : Numeral base t n) : Numeral base (t.map Char.toLower) n := by
  have key : ∀ p ∈ digitTable, (p.1.toLower, p.2) ∈ digitTable := by decide
  induction h with
  | single h => exact .single ⟨h.1, key _ h.2⟩
  | more _ h ih => rw [List.map_append]; exact .more ih ⟨h.1, key _ h.2⟩

theorem showbaseHex_spec (n : Nat) : FloatHex n (showbaseHex (4 * 2) n) := by
  unfold showbaseHex
  by_cases h0 : n = 0
  · subst h0; exact .inl ⟨rfl, by decide⟩
  · refine .inr ⟨by omega, _, (numeral_natDigits (by decide) (by decide) _ _ (Nat.lt_add_one n)).lower, ?_, ?_⟩
    · obtain ⟨c, r, h1, h2⟩ := natDigits_head (base := 16) (fuel := n + 1) (n := n) (by decide) (by decide) (by omega) (by omega)
      rw [h1]
      have hd := (numeral_natDigits (base := 16) (by decide) (by decide) _ _ (Nat.lt_add_one n)).chars.2 c (by
        rw [h1]; simp)
      obtain ⟨d, hd⟩ := hd
      have key : ∀ p ∈ digitTable, p.1 ≠ '0' → p.1.toLower ≠ '0' := by decide
      simpa using key _ hd.2 h2
    · simp only [if_neg h0, List.length_cons]
      congr 2
      omega

/-- What is read back of the raw hexadecimal text. -/
theorem Spec.FloatHex.denotes {n : Nat} {out : Str} (h : FloatHex n out) (hb : n < 2 ^ 32) (hn : n = 0 ∨ 2 ^ 20 ≤ n) :
    Denotes false 32 out n := by
  rcases h with ⟨rfl, rfl⟩ | ⟨h0, ds, h1, h2, rfl⟩
  · have : Numeral 10 (s "00000000") 0 := Numeral.leadingZeros (by decide) 7 (.single (c := '0') ⟨by decide, by decide⟩)
    exact .dec this
  · have hl : 6 ≤ ds.length := by
      by_contra hc
      have h3 : n < 16 ^ ds.length := h1.lt_pow
      have h4 : 16 ^ ds.length ≤ 16 ^ 5 := Nat.pow_le_pow_right (by decide) (by omega)
      rcases hn with h | h
      · omega
      · have : 16 ^ 5 = 2 ^ 20 := by decide
        omega
    rw [Nat.sub_eq_zero_of_le hl]
    exact .hexUnsigned rfl h1

end PF
