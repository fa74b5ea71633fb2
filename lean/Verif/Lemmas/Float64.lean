import Verif.Lemmas.Float32
import Verif.Spec.Adaptation

/-! Helper lemmas about double-precision numbers. -/

namespace PF
open Spec

/-- At most `p` significant bits. -/
def SigP (p n : Nat) : Prop := ∃ m t, m < 2 ^ p ∧ n = m * 2 ^ t

/-- The shape of a rounding of a number too large to be rounded to an integer. -/
theorem roundSig_large {p a b : Nat} (h : ¬ a / b < 2 ^ (p + 1)) :
    ∃ t, roundSig (p + 1) a b = roundEven a (b * 2 ^ t) * 2 ^ t ∧ 2 ^ (t + p) ≤ a / b ∧
      2 ^ p ≤ a / (b * 2 ^ t) ∧ a / (b * 2 ^ t) < 2 ^ (p + 1) := by
  have hne : a / b ≠ 0 := by
    intro h0; rw [h0] at h; exact h (by positivity)
  have hlo := Nat.log2_self_le hne
  have hhi := Nat.lt_log2_self (n := a / b)
  have hlp : p + 1 ≤ (a / b).log2 := (Nat.le_log2 hne).2 (by omega)
  obtain ⟨t, ht⟩ : ∃ t, (a / b).log2 = t + p := ⟨(a / b).log2 - p, by omega⟩
  refine ⟨t, ?_, ?_, ?_, ?_⟩
  · unfold roundSig
    rw [if_neg h, ht, show t + p - (p + 1 - 1) = t by omega]
  · rw [ht] at hlo; exact hlo
  · rw [ht] at hlo
    rw [← Nat.div_div_eq_div_mul]
    refine (Nat.le_div_iff_mul_le (by positivity)).2 ?_
    rw [← Nat.pow_add, Nat.add_comm]; exact hlo
  · rw [ht] at hhi
    rw [← Nat.div_div_eq_div_mul]
    refine Nat.div_lt_of_lt_mul ?_
    rw [← Nat.pow_add, show t + (p + 1) = t + p + 1 by omega]
    exact hhi

theorem roundSig_sig (p a b : Nat) : SigP (p + 1) (roundSig (p + 1) a b) := by
  rcases Nat.lt_or_ge (a / b) (2 ^ (p + 1)) with h | h
  · unfold roundSig
    rw [if_pos h]
    have := (roundEven_bounds a (b := b)).2
    rcases Nat.lt_or_ge (roundEven a b) (2 ^ (p + 1)) with h1 | h1
    · exact ⟨roundEven a b, 0, h1, by simp⟩
    · exact ⟨1, p + 1, Nat.one_lt_two_pow (by omega), by omega⟩
  · obtain ⟨t, e, -, -, h3⟩ := roundSig_large (Nat.not_lt.2 h)
    rw [e]
    have := (roundEven_bounds a (b := b * 2 ^ t)).2
    rcases Nat.lt_or_ge (roundEven a (b * 2 ^ t)) (2 ^ (p + 1)) with h1 | h1
    · exact ⟨_, t, h1, rfl⟩
    · refine ⟨1, p + 1 + t, Nat.one_lt_two_pow (by omega), ?_⟩
      rw [show roundEven a (b * 2 ^ t) = 2 ^ (p + 1) by omega, Nat.one_mul, ← Nat.pow_add]

/-- Rounding gives a nearest number. -/
theorem roundSig_nearest (p a : Nat) {b : Nat} (hb : 0 < b) {j : Nat} (hj : SigP (p + 1) j) :
    dist a b (roundSig (p + 1) a b) ≤ dist a b j := by
  rcases Nat.lt_or_ge (a / b) (2 ^ (p + 1)) with h | h
  · unfold roundSig
    rw [if_pos h]
    exact (roundEven_nearest a hb j).1
  · obtain ⟨t, e, hlo, -, -⟩ := roundSig_large (Nat.not_lt.2 h)
    rw [e]
    have hb' : 0 < b * 2 ^ t := by positivity
    obtain ⟨m, u, hm, rfl⟩ := hj
    rcases Nat.lt_or_ge u t with hu | hu
    · have hN := (roundEven_nearest a hb' (2 ^ p)).1
      rw [dist_scale, dist_scale] at hN
      have hlt : m * 2 ^ u < 2 ^ p * 2 ^ t := by
        have h4 : m * 2 ^ u < 2 ^ (p + 1) * 2 ^ u := Nat.mul_lt_mul_of_pos_right hm (by positivity)
        have h5 : 2 ^ (p + 1) * 2 ^ u ≤ 2 ^ p * 2 ^ t := by
          rw [← Nat.pow_add, ← Nat.pow_add]
          exact Nat.pow_le_pow_right (by decide) (by omega)
        omega
      have hle : 2 ^ p * 2 ^ t * b ≤ a := by
        have h6 : 2 ^ p * 2 ^ t ≤ a / b := by
          rw [← Nat.pow_add, Nat.add_comm]; exact hlo
        exact Nat.le_trans (Nat.mul_le_mul_right _ h6) (Nat.div_mul_le_self a b)
      refine Nat.le_trans hN ?_
      unfold dist
      have h7 : m * 2 ^ u * b < 2 ^ p * 2 ^ t * b := Nat.mul_lt_mul_of_pos_right hlt hb
      have e7 : ((m * 2 ^ u : Nat) : Int) * b = ((m * 2 ^ u * b : Nat) : Int) := by push_cast; ring
      have e8 : ((2 ^ p * 2 ^ t : Nat) : Int) * b = ((2 ^ p * 2 ^ t * b : Nat) : Int) := by push_cast; ring
      rw [e7, e8]
      generalize m * 2 ^ u * b = x at *
      generalize 2 ^ p * 2 ^ t * b = y at *
      omega
    · have hr := (roundEven_nearest a hb' (m * 2 ^ (u - t))).1
      have e9 : m * 2 ^ (u - t) * 2 ^ t = m * 2 ^ u := by
        rw [Nat.mul_assoc, ← Nat.pow_add, show u - t + t = u by omega]
      rw [dist_scale, dist_scale, e9] at hr
      exact hr

theorem roundEven_half_dist (a : Nat) {b : Nat} (hb : 0 < b) : 2 * dist a b (roundEven a b) ≤ b := by
  have e := Nat.div_add_mod a b
  have hm := Nat.mod_lt a hb
  have hc : b * (a / b) = a / b * b := Nat.mul_comm ..
  unfold roundEven dist
  generalize a / b = d at *
  generalize a % b = m at *
  have e1 : ((d + 1 : Nat) : Int) * b = d * b + b := by push_cast; ring
  have e2 : ((d : Int) * b) = a - m := by
    have : ((d * b : Nat) : Int) = (d : Int) * b := by push_cast; ring
    omega
  repeat' split
  all_goals (first | rw [e1, e2] | rw [e2])
  all_goals omega

/-- The relative error of a rounding. -/
theorem roundSig_error (p a : Nat) {b : Nat} (hb : 0 < b) :
    2 ^ (p + 1) * dist a b (roundSig (p + 1) a b) ≤ a ∨ 2 * dist a b (roundSig (p + 1) a b) ≤ b := by
  rcases Nat.lt_or_ge (a / b) (2 ^ (p + 1)) with h | h
  · right
    unfold roundSig
    rw [if_pos h]
    exact roundEven_half_dist a hb
  · left
    obtain ⟨t, e, hlo, -, -⟩ := roundSig_large (Nat.not_lt.2 h)
    rw [e]
    have hh := roundEven_half_dist a (b := b * 2 ^ t) (by positivity)
    rw [dist_scale] at hh
    have h1 : 2 ^ (t + p) * b ≤ a :=
      Nat.le_trans (Nat.mul_le_mul_right _ hlo) (Nat.div_mul_le_self a b)
    calc 2 ^ (p + 1) * dist a b (roundEven a (b * 2 ^ t) * 2 ^ t)
        = 2 ^ p * (2 * dist a b (roundEven a (b * 2 ^ t) * 2 ^ t)) := by rw [Nat.pow_succ]; ring
      _ ≤ 2 ^ p * (b * 2 ^ t) := Nat.mul_le_mul_left _ hh
      _ = 2 ^ (t + p) * b := by rw [Nat.pow_add]; ring
      _ ≤ a := h1

/-! ### Rational numbers -/

theorem abs_num_den (q : Rat) : (q.num.natAbs : Rat) = |q| * q.den := by
  have h := Rat.num_div_den q
  have hd : (0 : Rat) < q.den := by exact_mod_cast q.den_pos
  have h1 : (q.num : Rat) = q * q.den := by
    nth_rewrite 2 [← h]; field_simp
  rw [Nat.cast_natAbs, Int.cast_abs, h1, abs_mul, abs_of_pos hd]

/-- The distance of a number of units to a rational number. -/
theorem dist_rat (q : Rat) (u n : Nat) :
    (dist (q.num.natAbs * u) q.den n : Rat) = q.den * |(n : Rat) - |q| * u| := by
  have hd : (0 : Rat) < q.den := by exact_mod_cast q.den_pos
  unfold dist
  rw [Nat.cast_natAbs, Int.cast_abs]
  push_cast
  have := abs_num_den q
  rw [Nat.cast_natAbs, Int.cast_abs] at this
  rw [this]
  rw [show (n : Rat) * q.den - |q| * q.den * u = q.den * (n - |q| * u) by ring, abs_mul, abs_of_pos hd]

theorem dist_le_iff (q : Rat) (u n j : Nat) :
    dist (q.num.natAbs * u) q.den n ≤ dist (q.num.natAbs * u) q.den j ↔
      |(n : Rat) - |q| * u| ≤ |(j : Rat) - |q| * u| := by
  have hd : (0 : Rat) < q.den := by exact_mod_cast q.den_pos
  rw [← @Nat.cast_le Rat, dist_rat, dist_rat]
  exact mul_le_mul_iff_right₀ hd

theorem f64Units_sig (q : Rat) : SigP 53 (f64Units q) := roundSig_sig 52 _ _

theorem f64Units_nearest (q : Rat) {j : Nat} (hj : SigP 53 j) :
    |(f64Units q : Rat) - |q| * 2 ^ 1074| ≤ |(j : Rat) - |q| * 2 ^ 1074| := by
  have := (dist_le_iff q (2 ^ 1074) (f64Units q) j).1 (roundSig_nearest 52 _ q.den_pos hj)
  push_cast at this
  exact this

theorem f64OfUnits_abs (neg : Bool) (n : Nat) : |f64OfUnits neg n| = n / 2 ^ 1074 := by
  unfold f64OfUnits
  rw [abs_div, abs_of_pos (by positivity : (0 : Rat) < 2 ^ 1074)]
  cases neg <;> simp

/-- The result of a rounding is on the same side of zero as its operand. -/
theorem f64OfUnits_dist (q : Rat) (n : Nat) :
    |f64OfUnits (decide (q < 0)) n - q| = |(n : Rat) - |q| * 2 ^ 1074| / 2 ^ 1074 := by
  have hU : (0 : Rat) < 2 ^ 1074 := by positivity
  generalize hu : (2 : Rat) ^ 1074 = U at *
  unfold f64OfUnits
  rw [hu]
  have e : ∀ x : Rat, |x| / U = |x / U| := fun x => by rw [abs_div, abs_of_pos hU]
  rw [e]
  by_cases h : q < 0
  · simp only [h, decide_true, if_true]
    rw [abs_of_neg h, ← abs_neg]
    congr 1
    field_simp
    ring
  · simp only [h, decide_false, Bool.false_eq_true, if_false]
    rw [abs_of_nonneg (not_lt.1 h)]
    congr 1
    field_simp

theorem Spec.IsF64.sig {w : Rat} (h : IsF64 w) : ∃ j, SigP 53 j ∧ |w| = j / 2 ^ 1074 := by
  obtain ⟨m, t, hm, -, rfl⟩ := h
  refine ⟨m.natAbs * 2 ^ t, ⟨_, _, hm, rfl⟩, ?_⟩
  rw [abs_div, abs_mul, abs_of_pos (by positivity : (0 : Rat) < 2 ^ 1074), abs_of_pos (by positivity : (0 : Rat) < 2 ^ t)]
  push_cast
  rw [Nat.cast_natAbs, Int.cast_abs]

theorem f64OfUnits_isF64 (neg : Bool) {n : Nat} (hs : SigP 53 n) (hle : n ≤ f64MaxUnits) : IsF64 (f64OfUnits neg n) := by
  obtain ⟨m, t, hm, rfl⟩ := hs
  obtain ⟨m', t', hm', ht', e⟩ : ∃ m' t', m' < 2 ^ 53 ∧ t' ≤ 2045 ∧ m * 2 ^ t = m' * 2 ^ t' := by
    rcases Nat.lt_or_ge 2045 t with h | h
    · have e : m * 2 ^ t = m * 2 ^ (t - 2045) * 2 ^ 2045 := by
        rw [Nat.mul_assoc, ← Nat.pow_add, show t - 2045 + 2045 = t by omega]
      refine ⟨m * 2 ^ (t - 2045), 2045, ?_, Nat.le_refl _, e⟩
      rw [e] at hle
      unfold f64MaxUnits at hle
      have := Nat.le_of_mul_le_mul_right hle (by positivity)
      omega
    · exact ⟨m, t, hm, h, rfl⟩
  rw [e]
  refine ⟨if neg then -(m' : Int) else m', t', ?_, ht', ?_⟩
  · cases neg <;> simp <;> exact hm'
  · unfold f64OfUnits
    cases neg <;> simp

theorem f64MaxUnits_sig : SigP 53 f64MaxUnits := ⟨2 ^ 53 - 1, 2045, by decide, rfl⟩

theorem f64Limit_units : f64Limit * 2 ^ 1074 = ((2 : Rat) ^ 54 - 1) * 2 ^ 2044 := by
  unfold f64Limit
  rw [mul_assoc, ← pow_add]

theorem f64MaxUnits_cast : (f64MaxUnits : Rat) = ((2 : Rat) ^ 53 - 1) * 2 * 2 ^ 2044 := by
  unfold f64MaxUnits
  have e : (2 : Rat) ^ 2045 = 2 ^ 2044 * 2 := pow_succ ..
  rw [Nat.cast_mul, Nat.cast_pow (2 : Nat) 2045, Nat.cast_ofNat, e]
  push_cast
  ring

theorem SigP.beyond {n : Nat} (h : SigP 53 n) (hgt : f64MaxUnits < n) : 2 ^ 53 * 2 ^ 2045 ≤ n := by
  obtain ⟨m, t, hm, rfl⟩ := h
  unfold f64MaxUnits at hgt
  rcases Nat.lt_or_ge t 2045 with h1 | h1
  · exfalso
    have h2 : m * 2 ^ t ≤ (2 ^ 53 - 1) * 2 ^ 2045 :=
      Nat.mul_le_mul (by omega) (Nat.pow_le_pow_right (by decide) (by omega))
    exact absurd hgt (Nat.not_lt.2 h2)
  · have e : m * 2 ^ t = m * 2 ^ (t - 2045) * 2 ^ 2045 := by
      rw [Nat.mul_assoc, ← Nat.pow_add, show t - 2045 + 2045 = t by omega]
    rw [e] at hgt ⊢
    have := Nat.lt_of_mul_lt_mul_right hgt
    exact Nat.mul_le_mul_right _ (by omega)

/-- What overflows. -/
theorem f64Units_overflow (q : Rat) : f64MaxUnits < f64Units q ↔ f64Limit ≤ |q| := by
  have hU : (0 : Rat) < 2 ^ 1074 := by positivity
  have hE : (0 : Rat) < 2 ^ 2044 := by positivity
  have hlim := f64Limit_units
  have hmax := f64MaxUnits_cast
  have hbig : SigP 53 (2 ^ 53 * 2 ^ 2045) := ⟨1, 53 + 2045, by decide, by rw [Nat.one_mul, Nat.pow_add]⟩
  have hbigc : ((2 ^ 53 * 2 ^ 2045 : Nat) : Rat) = 2 ^ 53 * 2 * 2 ^ 2044 := by
    rw [Nat.cast_mul, Nat.cast_pow, Nat.cast_pow, Nat.cast_ofNat, show 2045 = 2044 + 1 from rfl, pow_succ (2 : Rat) 2044]
    ring
  constructor
  · intro h
    have hb := (f64Units_sig q).beyond h
    have hn := f64Units_nearest q f64MaxUnits_sig
    have hb' : ((2 ^ 53 * 2 ^ 2045 : Nat) : Rat) ≤ f64Units q := by exact_mod_cast hb
    rw [hbigc] at hb'
    rw [hmax] at hn
    generalize (f64Units q : Rat) = n at *
    refine le_of_mul_le_mul_right ?_ hU
    rw [hlim]
    generalize |q| * 2 ^ 1074 = z at *
    generalize (2 : Rat) ^ 2044 = E at *
    by_contra hc
    rw [not_le] at hc
    rcases le_or_gt (((2 : Rat) ^ 53 - 1) * 2 * E) z with h1 | h1
    · rw [abs_of_nonneg (by linarith), abs_of_nonpos (by linarith)] at hn
      linarith
    · rw [abs_of_nonneg (by linarith), abs_of_nonneg (by linarith)] at hn
      linarith
  · intro h
    by_contra hc
    have hn := f64Units_nearest q hbig
    have hle : (f64Units q : Rat) ≤ f64MaxUnits := by exact_mod_cast Nat.not_lt.1 hc
    have h' : f64Limit * 2 ^ 1074 ≤ |q| * 2 ^ 1074 := mul_le_mul_of_nonneg_right h hU.le
    -- the only possible case is the tie
    have htie : |q| * 2 ^ 1074 = f64Limit * 2 ^ 1074 ∧ (f64Units q : Rat) = f64MaxUnits := by
      rw [hbigc] at hn
      rw [hmax] at hle ⊢
      rw [hlim] at h' ⊢
      generalize (f64Units q : Rat) = n at *
      generalize |q| * 2 ^ 1074 = z at *
      generalize (2 : Rat) ^ 2044 = E at *
      rw [abs_of_nonpos (by linarith)] at hn
      rcases le_or_gt z ((2 : Rat) ^ 53 * 2 * E) with h1 | h1
      · rw [abs_of_nonneg (by linarith)] at hn
        constructor <;> linarith
      · rw [abs_of_nonpos (by linarith)] at hn
        exfalso; linarith
    have hn' : f64Units q = f64MaxUnits := by exact_mod_cast htie.2
    have hlarge : ¬ q.num.natAbs * 2 ^ 1074 / q.den < 2 ^ (52 + 1) := by
      intro hs
      have hr : f64Units q = roundEven (q.num.natAbs * 2 ^ 1074) q.den := by
        unfold f64Units roundSig; rw [if_pos hs]
      have hb2 := (roundEven_bounds (q.num.natAbs * 2 ^ 1074) (b := q.den)).2
      rw [← hr, hn'] at hb2
      have h53 : f64MaxUnits ≤ 2 ^ 53 := by omega
      unfold f64MaxUnits at h53
      have h2 : (2 ^ 53 - 1) * 2 ^ 1 ≤ (2 ^ 53 - 1) * 2 ^ 2045 :=
        Nat.mul_le_mul_left _ (Nat.pow_le_pow_right (by decide) (by omega))
      exact absurd (Nat.le_trans h2 h53) (by decide)
    obtain ⟨t, e, -, h3, h4⟩ := roundSig_large hlarge
    have hbd := roundEven_bounds (q.num.natAbs * 2 ^ 1074) (b := q.den * 2 ^ t)
    generalize hrr : roundEven (q.num.natAbs * 2 ^ 1074) (q.den * 2 ^ t) = r at *
    have heq : r * 2 ^ t = (2 ^ 53 - 1) * 2 ^ 2045 := by
      rw [← e]; exact hn'
    have ht : t = 2045 ∧ r = 2 ^ 53 - 1 := by
      rcases Nat.lt_trichotomy t 2045 with h5 | h5 | h5
      · exfalso
        have e5 : (2 ^ 53 - 1) * 2 ^ 2045 = (2 ^ 53 - 1) * 2 ^ (2045 - t) * 2 ^ t := by
          rw [Nat.mul_assoc, ← Nat.pow_add, show 2045 - t + t = 2045 by omega]
        rw [e5] at heq
        have e6 := Nat.eq_of_mul_eq_mul_right (by positivity) heq
        have h6 : (2 ^ 53 - 1) * 2 ^ 1 ≤ (2 ^ 53 - 1) * 2 ^ (2045 - t) :=
          Nat.mul_le_mul_left _ (Nat.pow_le_pow_right (by decide) (by omega))
        omega
      · subst h5
        exact ⟨rfl, Nat.eq_of_mul_eq_mul_right (by positivity) heq⟩
      · exfalso
        have e5 : r * 2 ^ t = r * 2 ^ (t - 2045) * 2 ^ 2045 := by
          rw [Nat.mul_assoc, ← Nat.pow_add, show t - 2045 + 2045 = t by omega]
        rw [e5] at heq
        have e6 := Nat.eq_of_mul_eq_mul_right (by positivity) heq
        rw [show t - 2045 = t - 2046 + 1 by omega, Nat.pow_succ, ← Nat.mul_assoc] at e6
        omega
    obtain ⟨rfl, rfl⟩ := ht
    have hpar := (roundEven_nearest (q.num.natAbs * 2 ^ 1074) (b := q.den * 2 ^ 2045)
      (Nat.mul_pos q.den_pos (by positivity)) (2 ^ 53)).2
    rw [hrr, dist_scale, dist_scale] at hpar
    have hd : dist (q.num.natAbs * 2 ^ 1074) q.den (2 ^ 53 * 2 ^ 2045) =
        dist (q.num.natAbs * 2 ^ 1074) q.den ((2 ^ 53 - 1) * 2 ^ 2045) := by
      rw [← @Nat.cast_inj Rat, dist_rat, dist_rat, hbigc]
      have hm2 : (((2 ^ 53 - 1) * 2 ^ 2045 : Nat) : Rat) = ((2 : Rat) ^ 53 - 1) * 2 * 2 ^ 2044 := hmax
      rw [hm2, Nat.cast_pow, Nat.cast_ofNat, htie.1, hlim]
      generalize (2 : Rat) ^ 2044 = E at *
      rw [abs_of_nonneg (by linarith), abs_of_nonpos (by linarith)]
      ring
    rcases hpar hd with h7 | h7
    · exact absurd h7 (by decide)
    · exact absurd h7 (by decide)

/-- A rounding that does not overflow gives a nearest number. -/
theorem f64Round_spec {q v : Rat} (h : f64Round q = .fin v) : Rounds q v := by
  unfold f64Round at h
  split at h
  · simp at h
  · rename_i hle
    simp only [F64.fin.injEq] at h
    subst h
    refine ⟨not_le.1 fun hc => hle ((f64Units_overflow q).2 hc),
      f64OfUnits_isF64 _ (f64Units_sig q) (Nat.not_lt.1 hle), ?_⟩
    intro w hw
    obtain ⟨j, hj, ej⟩ := hw.sig
    have hU : (0 : Rat) < 2 ^ 1074 := by positivity
    have h1 : |(j : Rat) - |q| * 2 ^ 1074| / 2 ^ 1074 = abs (|w| - |q|) := by
      rw [ej, ← abs_of_pos hU, ← abs_div, abs_of_pos hU, sub_div, mul_div_assoc, div_self hU.ne', mul_one]
    rw [f64OfUnits_dist]
    refine le_trans (div_le_div_of_nonneg_right (f64Units_nearest q hj) hU.le) ?_
    rw [h1]
    exact abs_abs_sub_abs_le_abs_sub w q

theorem f64Round_notFinite {q : Rat} : f64Round q = .notFinite ↔ f64Limit ≤ |q| := by
  rw [← f64Units_overflow]
  unfold f64Round
  split
  · rename_i h; simp [h]
  · rename_i h; simp [h]

theorem f64Round_fin {q : Rat} (h : |q| < f64Limit) : ∃ v, f64Round q = .fin v := by
  cases e : f64Round q with
  | fin v => exact ⟨v, rfl⟩
  | notFinite => exact absurd (f64Round_notFinite.1 e) (not_le.2 h)

/-- Finite numbers are below the limit. -/
theorem Spec.IsF64.lt_limit {w : Rat} (h : IsF64 w) : |w| < f64Limit := by
  obtain ⟨m, t, hm, ht, rfl⟩ := h
  have hU : (0 : Rat) < 2 ^ 1074 := by positivity
  rw [abs_div, abs_mul, abs_of_pos hU, abs_of_pos (by positivity : (0 : Rat) < 2 ^ t), div_lt_iff₀ hU, f64Limit_units]
  have h1 : |(m : Rat)| ≤ 2 ^ 53 - 1 := by
    rw [← Int.cast_abs, ← Nat.cast_natAbs]
    have : (m.natAbs : Rat) ≤ ((2 ^ 53 - 1 : Nat) : Rat) := by exact_mod_cast (by omega : m.natAbs ≤ 2 ^ 53 - 1)
    refine le_trans this ?_
    norm_num
  have h2 : (2 : Rat) ^ t ≤ 2 * 2 ^ 2044 := by
    rw [← pow_succ']
    exact pow_le_pow_right₀ (by norm_num) ht
  have hE : (0 : Rat) < 2 ^ 2044 := by positivity
  have hT : (0 : Rat) < 2 ^ t := by positivity
  generalize (2 : Rat) ^ 2044 = E at *
  generalize (2 : Rat) ^ t = T at *
  calc |(m : Rat)| * T ≤ (2 ^ 53 - 1) * T := mul_le_mul_of_nonneg_right h1 hT.le
    _ ≤ (2 ^ 53 - 1) * (2 * E) := mul_le_mul_of_nonneg_left h2 (by norm_num)
    _ < (2 ^ 54 - 1) * E := by linarith

/-- A number of double precision is its own rounding. -/
theorem Spec.Rounds.eq {q v : Rat} (h : Rounds q v) (hq : IsF64 q) : v = q := by
  have := h.2.2 q hq
  rw [sub_self, abs_zero] at this
  exact sub_eq_zero.1 (abs_eq_zero.1 (le_antisymm this (abs_nonneg _)))

theorem f64Round_exact {q : Rat} (hq : IsF64 q) : f64Round q = .fin q := by
  obtain ⟨v, hv⟩ := f64Round_fin hq.lt_limit
  rw [hv, (f64Round_spec hv).eq hq]

/-- Rounding is monotone. -/
theorem f64Round_mono {q q' v v' : Rat} (h : f64Round q = .fin v) (h' : f64Round q' = .fin v') (hle : q ≤ q') : v ≤ v' := by
  rcases eq_or_lt_of_le hle with e | hlt
  · subst e; rw [h] at h'; exact (F64.fin.inj h').le
  · by_contra hc
    rw [not_le] at hc
    have h1 := (f64Round_spec h).2.2 v' (f64Round_spec h').2.1
    have h2 := (f64Round_spec h').2.2 v (f64Round_spec h).2.1
    rw [abs_le_iff_mul_self_le, ← sub_nonneg] at h1 h2
    have e1 : (v' - q) * (v' - q) - (v - q) * (v - q) = (v - v') * (2 * q - (v + v')) := by ring
    have e2 : (v - q') * (v - q') - (v' - q') * (v' - q') = (v - v') * ((v + v') - 2 * q') := by ring
    rw [e1] at h1
    rw [e2] at h2
    have hp : 0 < v - v' := by linarith
    have h3 := nonneg_of_mul_nonneg_right h1 hp
    have h4 := nonneg_of_mul_nonneg_right h2 hp
    linarith

/-- The error of a rounding. -/
theorem f64Round_error {q v : Rat} (h : f64Round q = .fin v) : |v - q| ≤ |q| / 2 ^ 53 + 1 / 2 ^ 1075 := by
  unfold f64Round at h
  split at h
  · simp at h
  · simp only [F64.fin.injEq] at h
    subst h
    rw [f64OfUnits_dist]
    have hd : (0 : Rat) < q.den := by exact_mod_cast q.den_pos
    have hU : (0 : Rat) < 2 ^ 1074 := by positivity
    have e75 : (2 : Rat) ^ 1075 = 2 * 2 ^ 1074 := by rw [← pow_succ']
    have he := roundSig_error 52 (q.num.natAbs * 2 ^ 1074) q.den_pos
    have hr := dist_rat q (2 ^ 1074) (f64Units q)
    rw [Nat.cast_pow, Nat.cast_ofNat] at hr
    have hN := abs_num_den q
    have hU' : ((2 ^ 1074 : Nat) : Rat) = 2 ^ 1074 := by rw [Nat.cast_pow, Nat.cast_ofNat]
    rw [e75]
    have hfu : roundSig (52 + 1) (q.num.natAbs * 2 ^ 1074) q.den = f64Units q := rfl
    rw [hfu] at he
    rw [div_le_iff₀ hU, add_mul]
    have e2 : 1 / (2 * 2 ^ 1074) * (2 : Rat) ^ 1074 = 1 / 2 := by
      generalize (2 : Rat) ^ 1074 = U at *; field_simp
    rw [e2]
    rcases he with he | he
    · have he' : ((2 ^ (52 + 1) * dist (q.num.natAbs * 2 ^ 1074) q.den (f64Units q) : Nat) : Rat) ≤
          ((q.num.natAbs * 2 ^ 1074 : Nat) : Rat) := by exact_mod_cast he
      rw [Nat.cast_mul, Nat.cast_mul, hr, hN, hU'] at he'
      push_cast at he'
      generalize (2 : Rat) ^ 1074 = U at *
      generalize |(f64Units q : Rat) - |q| * U| = z at *
      have h5 : (2 : Rat) ^ 53 * z ≤ |q| * U := by
        refine le_of_mul_le_mul_right ?_ hd
        calc (2 : Rat) ^ 53 * z * q.den = 2 ^ (52 + 1) * (q.den * z) := by ring
          _ ≤ |q| * q.den * U := he'
          _ = |q| * U * q.den := by ring
      have h6 : z ≤ |q| / 2 ^ 53 * U := by
        rw [div_mul_eq_mul_div, le_div_iff₀ (by norm_num)]; linarith
      linarith
    · have he' : ((2 * dist (q.num.natAbs * 2 ^ 1074) q.den (f64Units q) : Nat) : Rat) ≤ (q.den : Rat) := by
        exact_mod_cast he
      rw [Nat.cast_mul, hr] at he'
      push_cast at he'
      generalize (2 : Rat) ^ 1074 = U at *
      generalize |(f64Units q : Rat) - |q| * U| = z at *
      have h5 : z ≤ 1 / 2 := by
        refine le_of_mul_le_mul_left ?_ hd
        linarith
      have h6 : 0 ≤ |q| / 2 ^ 53 * U := by positivity
      linarith

end PF
