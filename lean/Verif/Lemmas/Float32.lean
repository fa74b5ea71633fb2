import Verif.Model.Float32
import Verif.Spec.FloatingPoint
import Verif.Lemmas.FixedPoint
import Mathlib.Tactic.Linarith
import Mathlib.Tactic.FieldSimp
import Mathlib.Tactic.Ring
import Mathlib.Tactic.Positivity

/-! Helper lemmas about single-precision numbers. -/

namespace PF
open Spec

/-- Distance of `n` units to `a / b` units, times `b`. -/
def dist (a b n : Nat) : Nat := ((n * b : Int) - a).natAbs

theorem roundEven_nearest (a : Nat) {b : Nat} (hb : 0 < b) (j : Nat) :
    dist a b (roundEven a b) ≤ dist a b j ∧
    (dist a b j = dist a b (roundEven a b) → j = roundEven a b ∨ roundEven a b % 2 = 0) := by
  have e := Nat.div_add_mod a b
  have hm := Nat.mod_lt a hb
  have hc : b * (a / b) = a / b * b := Nat.mul_comm ..
  unfold roundEven dist
  generalize a / b = d at *
  generalize a % b = m at *
  have e1 : ((d + 1 : Nat) : Int) * b = d * b + b := by push_cast; ring
  have e2 : ((d : Int) * b) = a - m := by
    have : ((d * b : Nat) : Int) = (d : Int) * b := by push_cast; ring
    omega
  rcases Nat.lt_or_ge d j with hj | hj
  · obtain ⟨i, rfl⟩ : ∃ i, j = d + 1 + i := ⟨j - (d + 1), by omega⟩
    have e3 : ((d + 1 + i : Nat) : Int) * b = d * b + b + i * b := by push_cast; ring
    have h0 : i = 0 ∨ (b : Int) ≤ i * b := by
      rcases Nat.eq_zero_or_pos i with h | h
      · exact .inl h
      · right
        have : b ≤ i * b := Nat.le_mul_of_pos_left b h
        exact_mod_cast this
    have h1 : (0 : Int) ≤ i * b := by positivity
    rw [e3, e2]
    rcases h0 with rfl | h0
    · repeat' split
      all_goals (first | rw [e1, e2] | rw [e2])
      all_goals constructor
      all_goals (try intro _)
      all_goals omega
    · generalize (i : Int) * b = z at *
      repeat' split
      all_goals (first | rw [e1, e2] | rw [e2])
      all_goals constructor
      all_goals (try intro _)
      all_goals omega
  · obtain ⟨i, rfl⟩ : ∃ i, d = j + i := ⟨d - j, by omega⟩
    have e3 : (j : Int) * b = (j + i : Nat) * b - i * b := by push_cast; ring
    have h0 : i = 0 ∨ (b : Int) ≤ i * b := by
      rcases Nat.eq_zero_or_pos i with h | h
      · exact .inl h
      · right
        have : b ≤ i * b := Nat.le_mul_of_pos_left b h
        exact_mod_cast this
    have h1 : (0 : Int) ≤ i * b := by positivity
    rw [e3, e2]
    rcases h0 with rfl | h0
    · repeat' split
      all_goals (first | rw [e1, e2] | rw [e2])
      all_goals constructor
      all_goals (try intro _)
      all_goals simp at *
      all_goals omega
    · generalize (i : Int) * b = z at *
      repeat' split
      all_goals (first | rw [e1, e2] | rw [e2])
      all_goals constructor
      all_goals (try intro _)
      all_goals omega

theorem roundEven_bounds (a : Nat) {b : Nat} : a / b ≤ roundEven a b ∧ roundEven a b ≤ a / b + 1 := by
  unfold roundEven
  repeat' split
  all_goals omega

/-- At most 24 significant bits. -/
def Sig24 (n : Nat) : Prop := ∃ m t, m < 2 ^ 24 ∧ n = m * 2 ^ t

theorem f32RoundMag_sig (a b : Nat) : Sig24 (f32RoundMag a b) := by
  unfold f32RoundMag
  split
  · rename_i h
    rcases Nat.lt_or_ge (roundEven a b) (2 ^ 24) with h1 | h1
    · exact ⟨roundEven a b, 0, h1, by simp⟩
    · have := (roundEven_bounds a (b := b)).2
      exact ⟨1, 24, by decide, by omega⟩
  · rename_i h
    have hne : a / b ≠ 0 := by intro h0; rw [h0] at h; exact h (by decide)
    have hlog := Nat.lt_log2_self (n := a / b)
    have hl24 : 24 ≤ (a / b).log2 := (Nat.le_log2 hne).2 (by omega)
    obtain ⟨t, ht⟩ : ∃ t, (a / b).log2 = t + 23 := ⟨(a / b).log2 - 23, by omega⟩
    rw [ht, show t + 23 - 23 = t by omega]
    have hk : a / (b * 2 ^ t) < 2 ^ 24 := by
      rw [← Nat.div_div_eq_div_mul]
      refine Nat.div_lt_of_lt_mul ?_
      rw [ht] at hlog
      rw [← Nat.pow_add]
      rw [show t + 24 = t + 23 + 1 by omega]
      exact hlog
    have := (roundEven_bounds a (b := b * 2 ^ t)).2
    rcases Nat.lt_or_ge (roundEven a (b * 2 ^ t)) (2 ^ 24) with h1 | h1
    · exact ⟨_, t, h1, rfl⟩
    · refine ⟨1, 24 + t, by decide, ?_⟩
      rw [show roundEven a (b * 2 ^ t) = 2 ^ 24 by omega, Nat.pow_add]
      omega

theorem dist_scale (a b k t : Nat) : dist a (b * 2 ^ t) k = dist a b (k * 2 ^ t) := by
  unfold dist
  rw [show ((k : Int) * ((b * 2 ^ t : Nat) : Int)) = ((k * 2 ^ t : Nat) : Int) * b by push_cast; ring]

/-- The bits of the number but the sign. -/
def f32Low (n : Nat) : Nat :=
  if n < 2 ^ 23 then n else (n.log2 - 22) * 2 ^ 23 + (n / 2 ^ (n.log2 - 23) - 2 ^ 23)

theorem f32OfMag_eq (neg : Bool) (n : Nat) :
    f32OfMag neg n = BitVec.ofNat 32 (if neg then 2 ^ 31 + f32Low n else f32Low n) := rfl

theorem log2_scaled {k t : Nat} (h1 : 2 ^ 23 ≤ k) (h2 : k < 2 ^ 24) : (k * 2 ^ t).log2 = t + 23 := by
  have hp : 0 < 2 ^ t := Nat.pow_pos (by decide)
  have hk : k ≠ 0 := by intro h; rw [h] at h1; exact absurd h1 (by decide)
  have hne : k * 2 ^ t ≠ 0 := Nat.mul_ne_zero hk (by omega)
  have lo : t + 23 ≤ (k * 2 ^ t).log2 := by
    refine (Nat.le_log2 hne).2 ?_
    rw [Nat.pow_add, Nat.mul_comm]
    exact Nat.mul_le_mul_right _ h1
  have hi : (k * 2 ^ t).log2 < t + 24 := by
    refine (Nat.log2_lt hne).2 ?_
    rw [Nat.pow_add, Nat.mul_comm]
    exact Nat.mul_lt_mul_of_pos_left h2 hp
  omega

/-- The form of a number with at most 24 significant bits. -/
theorem Sig24.form {n : Nat} (h : Sig24 n) :
    n < 2 ^ 23 ∨ ∃ k t, 2 ^ 23 ≤ k ∧ k < 2 ^ 24 ∧ n = k * 2 ^ t := by
  rcases Nat.lt_or_ge n (2 ^ 23) with h1 | h1
  · exact .inl h1
  · right
    obtain ⟨m, t, hm, rfl⟩ := h
    have hm0 : m ≠ 0 := by intro h0; rw [h0, Nat.zero_mul] at h1; exact absurd h1 (by decide)
    have hne : m * 2 ^ t ≠ 0 := Nat.mul_ne_zero hm0 (by positivity)
    have hl := (Nat.le_log2 hne).2 h1
    have hlo := Nat.log2_self_le hne
    have hhi := Nat.lt_log2_self (n := m * 2 ^ t)
    generalize hL : (m * 2 ^ t).log2 = L at *
    have hs : L - 23 ≤ t := by
      by_contra hc
      have : m * 2 ^ t < 2 ^ 24 * 2 ^ t := Nat.mul_lt_mul_of_pos_right hm (by positivity)
      rw [← Nat.pow_add] at this
      have h3 : 2 ^ (24 + t) ≤ 2 ^ L := Nat.pow_le_pow_right (by decide) (by omega)
      omega
    refine ⟨m * 2 ^ (t - (L - 23)), L - 23, ?_, ?_, ?_⟩
    · refine Nat.le_of_mul_le_mul_right ?_ (show 0 < 2 ^ (L - 23) by positivity)
      rw [Nat.mul_assoc, ← Nat.pow_add, ← Nat.pow_add]
      rw [show t - (L - 23) + (L - 23) = t by omega, show 23 + (L - 23) = L by omega]
      exact hlo
    · refine Nat.lt_of_mul_lt_mul_right (a := 2 ^ (L - 23)) ?_
      rw [Nat.mul_assoc, ← Nat.pow_add, ← Nat.pow_add]
      rw [show t - (L - 23) + (L - 23) = t by omega, show 24 + (L - 23) = L + 1 by omega]
      exact hhi
    · rw [Nat.mul_assoc, ← Nat.pow_add, show t - (L - 23) + (L - 23) = t by omega]

theorem f32Low_scaled {k t : Nat} (h1 : 2 ^ 23 ≤ k) (h2 : k < 2 ^ 24) :
    f32Low (k * 2 ^ t) = (t + 1) * 2 ^ 23 + (k - 2 ^ 23) := by
  have hp : 1 ≤ 2 ^ t := Nat.pow_pos (by decide)
  have hge : ¬ k * 2 ^ t < 2 ^ 23 := by
    have : k * 1 ≤ k * 2 ^ t := Nat.mul_le_mul_left _ hp
    omega
  unfold f32Low
  rw [if_neg hge, log2_scaled h1 h2]
  rw [show t + 23 - 22 = t + 1 by omega, show t + 23 - 23 = t by omega, Nat.mul_div_cancel _ (by omega)]

theorem f32Low_small {n : Nat} (h : n < 2 ^ 24) : f32Low n = n := by
  rcases Nat.lt_or_ge n (2 ^ 23) with h1 | h1
  · unfold f32Low; rw [if_pos h1]
  · have := f32Low_scaled (t := 0) h1 h
    rw [Nat.pow_zero, Nat.mul_one] at this
    omega

theorem f32Low_parity {k t : Nat} (h1 : 2 ^ 23 ≤ k) (h2 : k ≤ 2 ^ 24) :
    f32Low (k * 2 ^ t) % 2 = k % 2 := by
  rcases Nat.lt_or_ge k (2 ^ 24) with h | h
  · rw [f32Low_scaled h1 h]; omega
  · obtain rfl : k = 2 ^ 24 := by omega
    have := f32Low_scaled (k := 2 ^ 23) (t := t + 1) (by decide) (by decide)
    rw [show 2 ^ 24 * 2 ^ t = 2 ^ 23 * 2 ^ (t + 1) by rw [Nat.pow_succ]; omega, this]
    omega

/-- Rounding gives a nearest number of 24 significant bits, with an even encoding if there are two. -/
theorem f32RoundMag_nearest (a : Nat) {b : Nat} (hb : 0 < b) {j : Nat} (hj : Sig24 j) :
    dist a b (f32RoundMag a b) ≤ dist a b j ∧
    (dist a b j = dist a b (f32RoundMag a b) →
      j = f32RoundMag a b ∨ f32Low (f32RoundMag a b) % 2 = 0) := by
  unfold f32RoundMag
  split
  · rename_i h
    have hr := roundEven_nearest a hb j
    refine ⟨hr.1, fun he => (hr.2 he).imp_right fun hp => ?_⟩
    have hu := (roundEven_bounds a (b := b)).2
    rcases Nat.lt_or_ge (roundEven a b) (2 ^ 24) with h1 | h1
    · rw [f32Low_small h1]; exact hp
    · rw [show roundEven a b = 2 ^ 24 by omega]
      exact f32Low_parity (k := 2 ^ 24) (t := 0) (by decide) (by decide)
  · rename_i h
    have hne : a / b ≠ 0 := by intro h0; rw [h0] at h; exact h (by decide)
    have hlo := Nat.log2_self_le hne
    have hhi := Nat.lt_log2_self (n := a / b)
    have hl24 : 24 ≤ (a / b).log2 := (Nat.le_log2 hne).2 (by omega)
    obtain ⟨t, ht⟩ : ∃ t, (a / b).log2 = t + 23 := ⟨(a / b).log2 - 23, by omega⟩
    rw [ht] at hlo hhi ⊢
    rw [show t + 23 - 23 = t by omega]
    have hb' : 0 < b * 2 ^ t := by positivity
    have hlo2 : 2 ^ 23 ≤ a / (b * 2 ^ t) := by
      rw [← Nat.div_div_eq_div_mul]
      refine (Nat.le_div_iff_mul_le (by positivity)).2 ?_
      rw [← Nat.pow_add, Nat.add_comm]; exact hlo
    have hhi2 : a / (b * 2 ^ t) < 2 ^ 24 := by
      rw [← Nat.div_div_eq_div_mul]
      refine Nat.div_lt_of_lt_mul ?_
      rw [← Nat.pow_add, show t + 24 = t + 23 + 1 by omega]
      exact hhi
    have hbd := roundEven_bounds a (b := b * 2 ^ t)
    rw [f32Low_parity (Nat.le_trans hlo2 hbd.1) (by omega)]
    obtain ⟨m, u, hm, rfl⟩ := hj
    rcases Nat.lt_or_ge u t with hu | hu
    · have hN := (roundEven_nearest a hb' (2 ^ 23)).1
      rw [dist_scale, dist_scale] at hN
      have hlt : m * 2 ^ u < 2 ^ 23 * 2 ^ t := by
        have h4 : m * 2 ^ u < 2 ^ 24 * 2 ^ u := Nat.mul_lt_mul_of_pos_right hm (by positivity)
        have h5 : 2 ^ 24 * 2 ^ u ≤ 2 ^ 23 * 2 ^ t := by
          rw [← Nat.pow_add, ← Nat.pow_add]
          exact Nat.pow_le_pow_right (by decide) (by omega)
        omega
      have hle : 2 ^ 23 * 2 ^ t * b ≤ a := by
        have h6 : 2 ^ 23 * 2 ^ t ≤ a / b := by
          rw [← Nat.pow_add, Nat.add_comm]; exact hlo
        exact Nat.le_trans (Nat.mul_le_mul_right _ h6) (Nat.div_mul_le_self a b)
      have hs : dist a b (2 ^ 23 * 2 ^ t) < dist a b (m * 2 ^ u) := by
        unfold dist
        have h7 : m * 2 ^ u * b < 2 ^ 23 * 2 ^ t * b := Nat.mul_lt_mul_of_pos_right hlt hb
        have e7 : ((m * 2 ^ u : Nat) : Int) * b = ((m * 2 ^ u * b : Nat) : Int) := by push_cast; ring
        have e8 : ((2 ^ 23 * 2 ^ t : Nat) : Int) * b = ((2 ^ 23 * 2 ^ t * b : Nat) : Int) := by push_cast; ring
        rw [e7, e8]
        generalize m * 2 ^ u * b = x at *
        generalize 2 ^ 23 * 2 ^ t * b = y at *
        omega
      constructor
      · omega
      · intro he; omega
    · have hr := roundEven_nearest a hb' (m * 2 ^ (u - t))
      have e9 : m * 2 ^ (u - t) * 2 ^ t = m * 2 ^ u := by
        rw [Nat.mul_assoc, ← Nat.pow_add, show u - t + t = u by omega]
      rw [dist_scale, dist_scale, e9] at hr
      refine ⟨hr.1, fun he => (hr.2 he).imp_left fun hp => ?_⟩
      rw [← e9, hp]

theorem f32MaxUnits_sig : Sig24 f32MaxUnits := ⟨2 ^ 24 - 1, 253, by decide, rfl⟩

theorem f32RoundMag_le {a b : Nat} (hb : 0 < b) (h : a ≤ f32MaxUnits * b) : f32RoundMag a b ≤ f32MaxUnits := by
  by_contra hc
  have hn := (f32RoundMag_nearest a hb f32MaxUnits_sig).1
  have h1 : f32MaxUnits * b < f32RoundMag a b * b := Nat.mul_lt_mul_of_pos_right (by omega) hb
  unfold dist at hn
  have e1 : (f32RoundMag a b : Int) * b = ((f32RoundMag a b * b : Nat) : Int) := by push_cast; ring
  have e2 : (f32MaxUnits : Int) * b = ((f32MaxUnits * b : Nat) : Int) := by push_cast; ring
  rw [e1, e2] at hn
  generalize f32RoundMag a b * b = x at *
  generalize f32MaxUnits * b = y at *
  omega

theorem f32RoundMag_exact {n b : Nat} (hb : 0 < b) (h : Sig24 n) : f32RoundMag (n * b) b = n := by
  have hn := (f32RoundMag_nearest (n * b) hb h).1
  have h0 : dist (n * b) b n = 0 := by unfold dist; push_cast; simp
  rw [h0] at hn
  unfold dist at hn
  have h1 : (f32RoundMag (n * b) b : Int) * b = n * b := by push_cast at hn; omega
  have h2 : f32RoundMag (n * b) b * b = n * b := by exact_mod_cast h1
  exact Nat.eq_of_mul_eq_mul_right hb h2

/-! ### Encoding -/

theorem f32Low_lt {n : Nat} (h : Sig24 n) (hle : n ≤ f32MaxUnits) : f32Low n < 255 * 2 ^ 23 := by
  rcases h.form with h1 | ⟨k, t, h1, h2, rfl⟩
  · rw [f32Low_small (by omega)]; omega
  · rw [f32Low_scaled h1 h2]
    have : t ≤ 253 := by
      by_contra hc
      have h3 : 2 ^ 23 * 2 ^ 254 ≤ k * 2 ^ t :=
        Nat.mul_le_mul h1 (Nat.pow_le_pow_right (by decide) (by omega))
      have h4 : f32MaxUnits < 2 ^ 23 * 2 ^ 254 := by decide
      omega
    omega

theorem f32OfMag_toNat {n : Nat} (h : Sig24 n) (hle : n ≤ f32MaxUnits) (neg : Bool) :
    (f32OfMag neg n).toNat = (if neg then 2 ^ 31 else 0) + f32Low n := by
  have := f32Low_lt h hle
  rw [f32OfMag_eq, BitVec.toNat_ofNat]
  cases neg <;> simp <;> omega

theorem f32OfMag_spec {n : Nat} (h : Sig24 n) (hle : n ≤ f32MaxUnits) (neg : Bool) :
    f32Finite (f32OfMag neg n) = true ∧ f32Mag (f32OfMag neg n) = n ∧ (f32OfMag neg n).msb = neg ∧
    (f32OfMag neg n).toNat % 2 = f32Low n % 2 := by
  have hl := f32Low_lt h hle
  have e := f32OfMag_toNat h hle neg
  have he : f32Exp (f32OfMag neg n) = f32Low n / 2 ^ 23 := by
    unfold f32Exp; rw [e]; cases neg <;> simp <;> omega
  have hm : f32Man (f32OfMag neg n) = f32Low n % 2 ^ 23 := by
    unfold f32Man; rw [e]; cases neg <;> simp <;> omega
  refine ⟨?_, ?_, ?_, ?_⟩
  · unfold f32Finite; rw [he]; simp; omega
  · unfold f32Mag
    rw [he, hm]
    rcases h.form with h1 | ⟨k, t, h1, h2, rfl⟩
    · rw [f32Low_small (by omega), if_pos (by omega)]; omega
    · rw [f32Low_scaled h1 h2] at hl ⊢
      rw [if_neg (by omega)]
      rw [show ((t + 1) * 2 ^ 23 + (k - 2 ^ 23)) / 2 ^ 23 = t + 1 by omega]
      rw [show ((t + 1) * 2 ^ 23 + (k - 2 ^ 23)) % 2 ^ 23 = k - 2 ^ 23 by omega]
      rw [show t + 1 - 1 = t by omega, show 2 ^ 23 + (k - 2 ^ 23) = k by omega]
  · rw [BitVec.msb_eq_decide, e]; cases neg <;> simp <;> omega
  · rw [e]; cases neg <;> simp <;> omega

theorem f32Mag_sig (v : BitVec 32) : Sig24 (f32Mag v) := by
  have : f32Man v < 2 ^ 23 := Nat.mod_lt _ (by decide)
  unfold f32Mag
  split
  · exact ⟨f32Man v, 0, by omega, by simp⟩
  · exact ⟨2 ^ 23 + f32Man v, f32Exp v - 1, by omega, rfl⟩

theorem f32Mag_le {v : BitVec 32} (h : f32Finite v = true) : f32Mag v ≤ f32MaxUnits := by
  have h1 : f32Man v < 2 ^ 23 := Nat.mod_lt _ (by decide)
  have h2 : f32Exp v < 256 := Nat.mod_lt _ (by decide)
  have h3 : f32Exp v ≠ 255 := by simpa [f32Finite] using h
  unfold f32Mag
  split
  · have : 2 ^ 23 ≤ f32MaxUnits := by decide
    omega
  · exact Nat.mul_le_mul (by omega) (Nat.pow_le_pow_right (by decide) (by omega))

/-- A finite number is what its sign and its magnitude encode. -/
theorem f32OfMag_mag {v : BitVec 32} : f32OfMag v.msb (f32Mag v) = v := by
  have h1 : f32Man v < 2 ^ 23 := Nat.mod_lt _ (by decide)
  have hv := v.isLt
  have hlow : f32Low (f32Mag v) = v.toNat % 2 ^ 31 := by
    unfold f32Mag
    split
    · rename_i h
      rw [f32Low_small (by omega)]
      unfold f32Exp at h; unfold f32Man; omega
    · rename_i h
      rw [f32Low_scaled (by omega) (by omega)]
      unfold f32Exp at *; unfold f32Man; omega
  rw [f32OfMag_eq, hlow]
  apply BitVec.eq_of_toNat_eq
  rw [BitVec.toNat_ofNat, BitVec.msb_eq_decide]
  simp
  split <;> omega

/-! ### Values -/

theorem f32Finite_iff (v : BitVec 32) : f32Finite v = true ↔ F32Finite v := by
  simp [f32Finite, F32Finite, f32Exp]

theorem f32Val_eq (v : BitVec 32) : f32Val v = (f32Units v : Rat) / 2 ^ 149 := by
  have hmag : (f32Mag v : Rat) / 2 ^ 149 =
      if f32Exp v = 0 then (f32Man v : Rat) / 2 ^ 149
      else ((2 ^ 23 + f32Man v : Nat) : Rat) * 2 ^ f32Exp v / 2 ^ 150 := by
    unfold f32Mag
    split
    · rfl
    · rename_i h
      obtain ⟨e, he⟩ : ∃ e, f32Exp v = e + 1 := ⟨f32Exp v - 1, by omega⟩
      rw [he, show e + 1 - 1 = e by omega]
      push_cast
      rw [pow_succ, show (2 : Rat) ^ 150 = 2 ^ 149 * 2 by norm_num]
      field_simp
      ring
  have hs : f32Units v = (if v.toNat < 2 ^ 31 then 1 else -1) * (f32Mag v : Int) := by
    unfold f32Units
    rw [BitVec.msb_eq_decide]
    by_cases h : v.toNat < 2 ^ 31
    · have h' : ¬ 2 ^ (32 - 1) ≤ v.toNat := by omega
      rw [if_pos h, decide_eq_false h', one_mul]
      rfl
    · have h' : 2 ^ (32 - 1) ≤ v.toNat := by omega
      rw [if_neg h, decide_eq_true h', neg_one_mul]
      rfl
  rw [hs]
  show (if v.toNat < 2 ^ 31 then (1 : Rat) else -1) * (if f32Exp v = 0 then (f32Man v : Rat) / 2 ^ 149
      else ((2 ^ 23 + f32Man v : Nat) : Rat) * 2 ^ f32Exp v / 2 ^ 150) = _
  rw [← hmag]
  split <;> push_cast <;> ring

theorem f32Val_le (v w : BitVec 32) : f32Val v ≤ f32Val w ↔ f32Units v ≤ f32Units w := by
  rw [f32Val_eq, f32Val_eq, div_le_div_iff_of_pos_right (by positivity)]
  exact Int.cast_le

theorem f32Val_inj (v w : BitVec 32) : f32Val v = f32Val w ↔ f32Units v = f32Units w := by
  rw [le_antisymm_iff, f32Val_le, f32Val_le, ← le_antisymm_iff]

theorem f32Units_natAbs (v : BitVec 32) : (f32Units v).natAbs = f32Mag v := by
  unfold f32Units; split <;> simp

/-- The distance of a number to `num / b`, scaled to an integer. -/
theorem f32_distance (num : Int) {b : Nat} (hb : 0 < b) (w : BitVec 32) :
    |f32Val w - num / b| = ((f32Units w * b - num * 2 ^ 149 : Int).natAbs : Rat) / (2 ^ 149 * b) := by
  have hb' : (0 : Rat) < b := by exact_mod_cast hb
  rw [f32Val_eq]
  have e : (f32Units w : Rat) / 2 ^ 149 - num / b =
      ((f32Units w * b - num * 2 ^ 149 : Int) : Rat) / (2 ^ 149 * b) := by
    push_cast
    field_simp
    ring
  rw [e, abs_div, Nat.cast_natAbs, abs_of_pos (show (0 : Rat) < 2 ^ 149 * b by positivity)]
  push_cast
  rfl

/-- The distance of a number, against that of its magnitude. -/
theorem f32_distance_ge (num : Int) {b : Nat} (hb : 0 < b) (w : BitVec 32) :
    dist (num.natAbs * 2 ^ 149) b (f32Mag w) ≤ (f32Units w * b - num * 2 ^ 149 : Int).natAbs := by
  unfold dist
  rw [← f32Units_natAbs]
  generalize f32Units w = x
  have hp : (0 : Int) < b := by exact_mod_cast hb
  have e1 : ((x.natAbs : Int) * (b : Int)) = |x * b| := by
    rw [abs_mul, abs_of_pos hp]; push_cast; rfl
  have e2 : (((num.natAbs * 2 ^ 149 : Nat)) : Int) = |num * 2 ^ 149| := by
    rw [abs_mul]; push_cast; norm_num
  rw [e1, e2]
  have := abs_abs_sub_abs_le_abs_sub (x * b) (num * 2 ^ 149)
  rw [Int.abs_eq_natAbs, Int.abs_eq_natAbs (x * b - num * 2 ^ 149)] at this
  exact_mod_cast this

theorem f32_distance_eq {num : Int} {b : Nat} {w : BitVec 32} (h : 0 ≤ f32Units w ∧ 0 ≤ num ∨ f32Units w ≤ 0 ∧ num ≤ 0) :
    (f32Units w * b - num * 2 ^ 149 : Int).natAbs = dist (num.natAbs * 2 ^ 149) b (f32Mag w) := by
  unfold dist
  rw [← f32Units_natAbs]
  generalize f32Units w = x at *
  rcases h with ⟨h1, h2⟩ | ⟨h1, h2⟩
  · push_cast; rw [abs_of_nonneg h1, abs_of_nonneg h2]
  · push_cast; rw [abs_of_nonpos h1, abs_of_nonpos h2, ← Int.natAbs_neg]; congr 1; ring

/-- `num / b` rounded, with a sign. -/
def f32Round (num : Int) (b : Nat) (neg : Bool) : BitVec 32 := f32OfMag neg (f32RoundMag (num.natAbs * 2 ^ 149) b)

theorem f32OfDbl_eq (d : Dbl) : f32OfDbl d = f32Round d.num (2 ^ d.k) (decide (d.num < 0)) := rfl

theorem f32Round_spec {num : Int} {b : Nat} (hb : 0 < b) (h : num.natAbs * 2 ^ 149 ≤ f32MaxUnits * b) (neg : Bool) :
    f32Finite (f32Round num b neg) = true ∧ f32Mag (f32Round num b neg) = f32RoundMag (num.natAbs * 2 ^ 149) b ∧
    (f32Round num b neg).msb = neg ∧
    (f32Round num b neg).toNat % 2 = f32Low (f32RoundMag (num.natAbs * 2 ^ 149) b) % 2 :=
  f32OfMag_spec (f32RoundMag_sig ..) (f32RoundMag_le hb h) _

/-- Rounding gives the nearest number. -/
theorem f32Round_nearest {num : Int} {b : Nat} (hb : 0 < b) (h : num.natAbs * 2 ^ 149 ≤ f32MaxUnits * b) {neg : Bool}
    (hneg : if neg then num ≤ 0 else 0 ≤ num) : Nearest ((num : Rat) / b) (f32Round num b neg) := by
  obtain ⟨h1, h2, h3, h4⟩ := f32Round_spec hb h neg
  generalize f32Round num b neg = v at *
  have hb' : (0 : Rat) < b := by exact_mod_cast hb
  have hp : (0 : Rat) < 2 ^ 149 * b := by positivity
  have hsame : 0 ≤ f32Units v ∧ 0 ≤ num ∨ f32Units v ≤ 0 ∧ num ≤ 0 := by
    unfold f32Units
    rw [h3]
    cases neg
    · left; simp at hneg ⊢; exact hneg
    · right; simp at hneg ⊢; exact hneg
  have hd := f32_distance_eq (b := b) hsame
  rw [h2] at hd
  refine ⟨(f32Finite_iff _).1 h1, fun w _ => ?_, fun w _ he hne => ?_⟩
  · rw [f32_distance _ hb, f32_distance _ hb, div_le_div_iff_of_pos_right hp, Nat.cast_le, hd]
    exact Nat.le_trans (f32RoundMag_nearest _ hb (f32Mag_sig w)).1 (f32_distance_ge _ hb _)
  · rw [f32_distance _ hb, f32_distance _ hb, div_left_inj' (ne_of_gt hp), Nat.cast_inj, hd] at he
    have hn := f32RoundMag_nearest (num.natAbs * 2 ^ 149) hb (f32Mag_sig w)
    have hge := f32_distance_ge num hb w
    rw [h4]
    have heq : dist (num.natAbs * 2 ^ 149) b (f32Mag w) =
        dist (num.natAbs * 2 ^ 149) b (f32RoundMag (num.natAbs * 2 ^ 149) b) := by omega
    rcases hn.2 heq with hm | hm
    · -- the same magnitude: the signs differ, and the number is 0
      rw [← h2] at hm
      exfalso
      apply hne
      rw [f32Val_inj]
      have h0z : num = 0 → f32Mag v = 0 := by
        intro hz
        rw [h2, hz]
        have := f32RoundMag_exact (n := 0) hb ⟨0, 0, by decide, rfl⟩
        simpa using this
      by_cases h0 : f32Mag w = 0
      · have e1 : f32Units w = 0 := by have := f32Units_natAbs w; omega
        have e2 : f32Units v = 0 := by have := f32Units_natAbs v; omega
        omega
      · by_contra hx
        have ha := f32Units_natAbs w
        have hb' := f32Units_natAbs v
        have hopp : f32Units w = - f32Units v := by omega
        rw [← hd, hopp] at he
        have hk : (0 : Int) < b := by exact_mod_cast hb
        rcases hsame with ⟨q1, q2⟩ | ⟨q1, q2⟩
        · have hpos : 0 < f32Units v * b := Int.mul_pos (by omega) hk
          rw [Int.neg_mul] at he
          have hz : num = 0 := by omega
          have := h0z hz
          omega
        · have hpos : 0 < (- f32Units v) * b := Int.mul_pos (by omega) hk
          rw [Int.neg_mul] at he hpos
          have hz : num = 0 := by omega
          have := h0z hz
          omega
    · exact hm

theorem f32OfDbl_nearest {d : Dbl} (h : d.num.natAbs * 2 ^ 149 ≤ f32MaxUnits * 2 ^ d.k) :
    Nearest d.val (f32OfDbl d) := by
  rw [f32OfDbl_eq]
  refine f32Round_nearest (by positivity) h ?_
  by_cases hn : d.num < 0
  · simp [hn]; omega
  · simp [hn]; omega

/-! ### There is one nearest number -/

theorem f32Mag_step {v : BitVec 32} (h : v.toNat % 2 ^ 31 + 1 < 2 ^ 31) :
    f32Mag v < f32Mag (v + 1#32) ∧ (v + 1#32).msb = v.msb ∧ (v + 1#32).toNat = v.toNat + 1 := by
  have hv := v.isLt
  have e : (v + 1#32).toNat = v.toNat + 1 := by
    rw [BitVec.toNat_add]; simp; omega
  refine ⟨?_, ?_, e⟩
  · have h1 : f32Man v < 2 ^ 23 := Nat.mod_lt _ (by decide)
    by_cases hc : f32Man v + 1 = 2 ^ 23
    · have h2 : f32Man (v + 1#32) = 0 := by unfold f32Man at *; rw [e]; omega
      have h3 : f32Exp (v + 1#32) = f32Exp v + 1 := by unfold f32Man at hc; unfold f32Exp; rw [e]; omega
      unfold f32Mag
      rw [h2, h3, if_neg (by omega : ¬ f32Exp v + 1 = 0)]
      split
      · rename_i h0; rw [h0]; omega
      · rename_i h0
        obtain ⟨k, hk⟩ : ∃ k, f32Exp v = k + 1 := ⟨f32Exp v - 1, by omega⟩
        rw [hk, show k + 1 - 1 = k by omega, show k + 1 + 1 - 1 = k + 1 by omega]
        have : 0 < 2 ^ k := by positivity
        have e1 : (2 ^ 23 + 0) * 2 ^ (k + 1) = 2 ^ 24 * 2 ^ k := by rw [pow_succ]; ring
        rw [e1]
        exact Nat.mul_lt_mul_of_pos_right (by omega) this
    · have h2 : f32Man (v + 1#32) = f32Man v + 1 := by unfold f32Man at *; rw [e]; omega
      have h3 : f32Exp (v + 1#32) = f32Exp v := by unfold f32Man at hc; unfold f32Exp; rw [e]; omega
      unfold f32Mag
      rw [h2, h3]
      split
      · omega
      · exact Nat.mul_lt_mul_of_pos_right (by omega) (by positivity)
  · rw [BitVec.msb_eq_decide, BitVec.msb_eq_decide, e]; simp; omega

/-- A larger magnitude, a larger encoding. -/
theorem f32Mag_mono {v w : BitVec 32} (hs : v.msb = w.msb) (h : v.toNat ≤ w.toNat) : f32Mag v ≤ f32Mag w := by
  obtain ⟨n, hn⟩ : ∃ n, w.toNat = v.toNat + n := ⟨w.toNat - v.toNat, by omega⟩
  induction n generalizing v with
  | zero => rw [show v = w from BitVec.eq_of_toNat_eq (by omega)]
  | succ n ih =>
    rw [BitVec.msb_eq_decide, BitVec.msb_eq_decide] at hs
    have hw := w.isLt
    have hs' : (2 ^ 31 ≤ v.toNat ↔ 2 ^ 31 ≤ w.toNat) := by simpa using hs
    have hst := f32Mag_step (v := v) (by omega)
    have := ih (v := v + 1#32) (by rw [hst.2.1, BitVec.msb_eq_decide, BitVec.msb_eq_decide]; simpa using hs')
      (by omega) (by omega)
    omega

theorem f32_eq_of_units {v w : BitVec 32} (hs : v.msb = w.msb) (h : f32Units v = f32Units w) : v = w := by
  rw [← f32OfMag_mag (v := v), ← f32OfMag_mag (v := w), hs, ← f32Units_natAbs, ← f32Units_natAbs, h]

/-- Two numbers at the same distance, with another one between them, are not nearest. -/
theorem not_between {q : Rat} {v w u : BitVec 32} (hv : Nearest q v) (hw : Nearest q w) (hu : F32Finite u)
    (h1 : f32Val v < f32Val u) (h2 : f32Val u < f32Val w) : False := by
  have a1 := hv.nearest u hu
  have a2 := hv.nearest w hw.finite
  have a3 := hw.nearest v hv.finite
  have a4 := hw.nearest u hu
  rcases abs_cases (f32Val u - q) with ⟨e, _⟩ | ⟨e, _⟩ <;>
  rcases abs_cases (f32Val v - q) with ⟨e', _⟩ | ⟨e', _⟩ <;>
  rcases abs_cases (f32Val w - q) with ⟨e'', _⟩ | ⟨e'', _⟩ <;>
  rw [e, e'] at a1 <;> rw [e, e''] at a4 <;> rw [e', e''] at a2 <;> rw [e', e''] at a3 <;> linarith

theorem f32Finite_of_le {v w : BitVec 32} (hs : v.msb = w.msb) (h : v.toNat ≤ w.toNat) (hw : F32Finite w) : F32Finite v := by
  unfold F32Finite at *
  have := v.isLt
  have := w.isLt
  rw [BitVec.msb_eq_decide, BitVec.msb_eq_decide] at hs
  have hs' : (2 ^ 31 ≤ v.toNat ↔ 2 ^ 31 ≤ w.toNat) := by simpa using hs
  omega

theorem Spec.Nearest.val_unique {q : Rat} {v w : BitVec 32} (hv : Nearest q v) (hw : Nearest q w) : f32Val v = f32Val w := by
  have hd : |f32Val v - q| = |f32Val w - q| := le_antisymm (hv.nearest w hw.finite) (hw.nearest v hv.finite)
  by_contra hne
  have ev := hv.even w hw.finite hd.symm (fun h => hne h.symm)
  have ew := hw.even v hv.finite hd hne
  -- the smaller one first
  have key : ∀ v w : BitVec 32, Nearest q v → Nearest q w → v.toNat % 2 = 0 → w.toNat % 2 = 0 →
      f32Val v < f32Val w → False := by
    intro v w hv hw ev ew hlt
    have hlt' : f32Units v < f32Units w := by
      rcases lt_or_ge (f32Units v) (f32Units w) with h | h
      · exact h
      · exact absurd ((f32Val_le w v).2 h) (by linarith)
    have hvl := v.isLt
    have hwl := w.isLt
    have huv : ∀ u v : BitVec 32, f32Units u < f32Units v → f32Val u < f32Val v := by
      intro u v h
      by_contra hc
      have := (f32Val_le v u).1 (not_lt.1 hc)
      omega
    have av := f32Units_natAbs v
    have aw := f32Units_natAbs w
    cases sv : v.msb <;> cases sw : w.msb
    · -- both positive
      have uv : f32Units v = f32Mag v := by unfold f32Units; rw [sv]; rfl
      have uw : f32Units w = f32Mag w := by unfold f32Units; rw [sw]; rfl
      have hle : v.toNat < w.toNat := by
        by_contra hc
        have := f32Mag_mono (v := w) (w := v) (by rw [sv, sw]) (by omega)
        omega
      rw [BitVec.msb_eq_decide] at sw
      have sw' : w.toNat < 2 ^ 31 := by simpa using sw
      have st := f32Mag_step (v := v) (by omega)
      have st2 := f32Mag_step (v := v + 1#32) (by omega)
      have hm := f32Mag_mono (v := v + 1#32 + 1#32) (w := w)
        (by rw [st2.2.1, st.2.1, sv, BitVec.msb_eq_decide, sw]) (by omega)
      have uu : f32Units (v + 1#32) = f32Mag (v + 1#32) := by unfold f32Units; rw [st.2.1, sv]; rfl
      refine not_between hv hw (u := v + 1#32) ?_ (huv _ _ (by omega)) (huv _ _ (by omega))
      exact f32Finite_of_le (by rw [st.2.1, sv, BitVec.msb_eq_decide, sw]) (by omega) hw.finite
    · -- positive, negative
      have uv : f32Units v = f32Mag v := by unfold f32Units; rw [sv]; rfl
      have uw : f32Units w = -(f32Mag w : Int) := by unfold f32Units; rw [sw]; rfl
      omega
    · -- negative, positive
      have uv : f32Units v = -(f32Mag v : Int) := by unfold f32Units; rw [sv]; rfl
      have uw : f32Units w = f32Mag w := by unfold f32Units; rw [sw]; rfl
      have z0 : f32Units 0#32 = 0 := by decide
      by_cases hv0 : f32Mag v = 0
      · -- one is zero: the number below the other one is between
        rw [BitVec.msb_eq_decide] at sw
        have sw' : w.toNat < 2 ^ 31 := by simpa using sw
        have hwp : 0 < w.toNat := by
          rcases Nat.eq_zero_or_pos w.toNat with h | h
          · have : w = 0#32 := BitVec.eq_of_toNat_eq h
            rw [this] at hlt' ; omega
          · exact h
        have st := f32Mag_step (v := 0#32) (by decide)
        have st2 := f32Mag_step (v := 0#32 + 1#32) (by decide)
        have hm := f32Mag_mono (v := 0#32 + 1#32 + 1#32) (w := w)
          (by rw [BitVec.msb_eq_decide w, sw]; decide) (by rw [st2.2.2, st.2.2]; simp; omega)
        have uu : f32Units (0#32 + 1#32) = f32Mag (0#32 + 1#32) := by decide
        exact not_between hv hw (u := 0#32 + 1#32) (by unfold F32Finite; decide) (huv _ _ (by omega)) (huv _ _ (by omega))
      · by_cases hw0 : f32Mag w = 0
        · rw [BitVec.msb_eq_decide] at sv
          have sv' : 2 ^ 31 ≤ v.toNat := by simpa using sv
          have st := f32Mag_step (v := 0x80000000#32) (by decide)
          have st2 := f32Mag_step (v := 0x80000000#32 + 1#32) (by decide)
          have hvp : 2 ^ 31 < v.toNat := by
            rcases Nat.eq_or_lt_of_le sv' with h | h
            · have hz : v = 0x80000000#32 := BitVec.eq_of_toNat_eq (by rw [← h]; rfl)
              rw [hz] at hv0
              exact absurd (by decide) hv0
            · exact h
          have hm := f32Mag_mono (v := 0x80000000#32 + 1#32 + 1#32) (w := v)
            (by rw [BitVec.msb_eq_decide v, sv]; decide) (by rw [st2.2.2, st.2.2]; simp; omega)
          have uu : f32Units (0x80000000#32 + 1#32) = -(f32Mag (0x80000000#32 + 1#32) : Int) := by decide
          exact not_between hv hw (u := 0x80000000#32 + 1#32) (by unfold F32Finite; decide)
            (huv _ _ (by omega)) (huv _ _ (by omega))
        · exact not_between hv hw (u := 0#32) (by unfold F32Finite; decide) (huv _ _ (by omega)) (huv _ _ (by omega))
    · -- both negative
      have uv : f32Units v = -(f32Mag v : Int) := by unfold f32Units; rw [sv]; rfl
      have uw : f32Units w = -(f32Mag w : Int) := by unfold f32Units; rw [sw]; rfl
      have hle : w.toNat < v.toNat := by
        by_contra hc
        have := f32Mag_mono (v := v) (w := w) (by rw [sv, sw]) (by omega)
        omega
      rw [BitVec.msb_eq_decide] at sw
      have sw' : 2 ^ 31 ≤ w.toNat := by simpa using sw
      have st := f32Mag_step (v := w) (by omega)
      have st2 := f32Mag_step (v := w + 1#32) (by omega)
      have hm := f32Mag_mono (v := w + 1#32 + 1#32) (w := v)
        (by rw [st2.2.1, st.2.1, sv, BitVec.msb_eq_decide, sw]) (by omega)
      have uu : f32Units (w + 1#32) = -(f32Mag (w + 1#32) : Int) := by
        unfold f32Units; rw [st.2.1, BitVec.msb_eq_decide, sw]; rfl
      refine not_between hv hw (u := w + 1#32) ?_ (huv _ _ (by omega)) (huv _ _ (by omega))
      exact f32Finite_of_le (by rw [st.2.1, sv, BitVec.msb_eq_decide, sw]) (by omega) hv.finite
  rcases lt_or_gt_of_ne hne with h | h
  · exact key v w hv hw ev ew h
  · exact key w v hw hv ew ev h

theorem Spec.Nearest.unique {q : Rat} {v w : BitVec 32} (hv : Nearest q v) (hw : Nearest q w) (hs : v.msb = w.msb) : v = w :=
  f32_eq_of_units hs ((f32Val_inj v w).1 (hv.val_unique hw))

/-- The cast to `double` and back. -/
theorem f32OfDbl_toDbl {v : BitVec 32} (hz : f32Mag v ≠ 0 ∨ v.msb = false) : f32OfDbl (f32ToDbl v) = v := by
  unfold f32OfDbl f32ToDbl
  rw [show (⟨f32Units v, 149⟩ : Dbl).num.natAbs = f32Mag v from f32Units_natAbs v,
    show (⟨f32Units v, 149⟩ : Dbl).k = 149 from rfl, f32RoundMag_exact (by positivity) (f32Mag_sig v)]
  have : decide (f32Units v < 0) = v.msb := by
    unfold f32Units
    cases hm : v.msb
    · simp
    · rw [hm] at hz; simp at hz ⊢; omega
  rw [this]
  exact f32OfMag_mag

end PF
