import Verif.Spec.FixedPoint
import Verif.Lemmas.Enum
import Mathlib.Algebra.Order.Field.Rat
import Mathlib.Tactic.Linarith
import Mathlib.Tactic.FieldSimp
import Mathlib.Tactic.Ring
import Mathlib.Tactic.Positivity

/-! Helper lemmas about fixed-point parameters. -/

namespace PF

/-- `roundDiv` is within half a unit. -/
theorem roundDiv_close (num : Int) (k : Nat) :
    2 * roundDiv num k * (2 ^ k : Nat) ≤ 2 * num + (2 ^ k : Nat) ∧
    2 * num ≤ 2 * roundDiv num k * (2 ^ k : Nat) + (2 ^ k : Nat) := by
  have hK : (0 : Int) < (2 ^ k : Nat) := by exact_mod_cast Nat.two_pow_pos k
  have h2 : ((2 ^ (k + 1) : Nat) : Int) = 2 * (2 ^ k : Nat) := by
    rw [Nat.pow_succ]; push_cast; ring
  unfold roundDiv
  rw [h2]
  generalize ((2 ^ k : Nat) : Int) = K at *
  have hd : ∀ a : Int, 2 * K * (a / (2 * K)) ≤ a ∧ a < 2 * K * (a / (2 * K)) + 2 * K := by
    intro a
    have e := Int.emod_add_mul_ediv a (2 * K)
    have h0 := Int.emod_nonneg a (show 2 * K ≠ 0 by omega)
    have h1 := Int.emod_lt_of_pos a (show 0 < 2 * K by omega)
    constructor <;> omega
  split
  · obtain ⟨h3, h4⟩ := hd (2 * num + K)
    generalize (2 * num + K) / (2 * K) = q at *
    have e : 2 * q * K = 2 * K * q := by ring
    constructor <;> omega
  · obtain ⟨h3, h4⟩ := hd (2 * -num + K)
    generalize (2 * -num + K) / (2 * K) = q at *
    have e : 2 * -q * K = -(2 * K * q) := by ring
    constructor <;> omega

theorem FixedType.inRange_iff (t : FixedType) (d : Dbl) : t.inRange d = true ↔ t.Real d.val := by
  unfold FixedType.inRange FixedType.Real Dbl.val
  have hk : (0 : Rat) < ((2 ^ d.k : Nat) : Rat) := by positivity
  have hm : (0 : Rat) < ((2 ^ t.fractional : Nat) : Rat) := by positivity
  have hnm : ((2 ^ (t.integral + t.fractional) : Nat) : Rat) =
      ((2 ^ t.integral : Nat) : Rat) * ((2 ^ t.fractional : Nat) : Rat) := by
    rw [Nat.pow_add]; push_cast; ring
  rw [Bool.and_eq_true, decide_eq_true_eq, decide_eq_true_eq, and_comm]
  constructor
  · rintro ⟨h1, h2⟩
    have h1' : -((2 ^ (t.integral + t.fractional) : Nat) : Rat) * ((2 ^ d.k : Nat) : Rat) ≤
        (d.num : Rat) * ((2 ^ t.fractional : Nat) : Rat) := by exact_mod_cast h1
    have h2' : (d.num : Rat) * ((2 ^ t.fractional : Nat) : Rat) ≤
        (((2 ^ (t.integral + t.fractional) : Nat) : Rat) - 1) * ((2 ^ d.k : Nat) : Rat) := by
      exact_mod_cast h2
    rw [hnm] at h1' h2'
    generalize ((2 ^ d.k : Nat) : Rat) = K at *
    generalize ((2 ^ t.fractional : Nat) : Rat) = M at *
    generalize ((2 ^ t.integral : Nat) : Rat) = N at *
    generalize (d.num : Rat) = x at *
    constructor
    · rw [le_div_iff₀ hk]
      nlinarith
    · rw [div_le_iff₀ hk]
      have : (N - 1 / M) * K * M = (N * M - 1) * K := by field_simp
      nlinarith
  · rintro ⟨h1, h2⟩
    rw [le_div_iff₀ hk] at h1
    rw [div_le_iff₀ hk] at h2
    have h1' : -((2 ^ (t.integral + t.fractional) : Nat) : Rat) * ((2 ^ d.k : Nat) : Rat) ≤
        (d.num : Rat) * ((2 ^ t.fractional : Nat) : Rat) := by
      rw [hnm]; nlinarith
    have h2' : (d.num : Rat) * ((2 ^ t.fractional : Nat) : Rat) ≤
        (((2 ^ (t.integral + t.fractional) : Nat) : Rat) - 1) * ((2 ^ d.k : Nat) : Rat) := by
      rw [hnm]
      generalize ((2 ^ d.k : Nat) : Rat) = K at *
      generalize ((2 ^ t.fractional : Nat) : Rat) = M at *
      generalize ((2 ^ t.integral : Nat) : Rat) = N at *
      have : (N - 1 / M) * K * M = (N * M - 1) * K := by field_simp
      nlinarith
    exact ⟨by exact_mod_cast h1', by exact_mod_cast h2'⟩

/-- Rounding stays in the integer range. -/
theorem FixedType.round_range (t : FixedType) (d : Dbl) (h : t.inRange d = true) :
    -((2 ^ (t.integral + t.fractional) : Nat) : Int) ≤ roundDiv (d.num * (2 ^ t.fractional : Nat)) d.k ∧
    roundDiv (d.num * (2 ^ t.fractional : Nat)) d.k < ((2 ^ (t.integral + t.fractional) : Nat) : Int) := by
  unfold FixedType.inRange at h
  rw [Bool.and_eq_true, decide_eq_true_eq, decide_eq_true_eq] at h
  obtain ⟨h1, h2⟩ := h
  obtain ⟨h3, h4⟩ := roundDiv_close (d.num * (2 ^ t.fractional : Nat)) d.k
  generalize roundDiv (d.num * (2 ^ t.fractional : Nat)) d.k = r at *
  generalize d.num * ((2 ^ t.fractional : Nat) : Int) = x at *
  have hK : (0 : Int) < (2 ^ d.k : Nat) := by exact_mod_cast Nat.two_pow_pos d.k
  generalize ((2 ^ d.k : Nat) : Int) = K at *
  generalize ((2 ^ (t.integral + t.fractional) : Nat) : Int) = M at *
  constructor
  · by_contra hc
    have : r + 1 ≤ -M := by omega
    nlinarith
  · by_contra hc
    have : M ≤ r := by omega
    nlinarith

/-- The bits stored for a value, as a number. -/
theorem FixedType.toBinary_toInt (t : FixedType) (wf : t.WF) (d : Dbl) (h : t.inRange d = true) :
    (t.toBinary d).toInt =
      roundDiv (d.num * (2 ^ t.fractional : Nat)) d.k * (2 ^ (t.size * 8 - t.utilBits) : Nat) ∧
    FitsSigned t.size (t.toBinary d).toInt := by
  obtain ⟨h1, h2⟩ := t.round_range d h
  have hsum : 2 ^ (t.integral + t.fractional) * 2 ^ (t.size * 8 - t.utilBits) = 2 ^ (8 * t.size - 1) := by
    rw [← Nat.pow_add]
    congr 1
    have := wf.fits
    unfold FixedType.utilBits
    omega
  have hsumI : ((2 ^ (t.integral + t.fractional) : Nat) : Int) * (2 ^ (t.size * 8 - t.utilBits) : Nat)
      = (2 ^ (8 * t.size - 1) : Nat) := by exact_mod_cast hsum
  have hS : (0 : Int) < (2 ^ (t.size * 8 - t.utilBits) : Nat) := by
    exact_mod_cast Nat.two_pow_pos _
  unfold FixedType.toBinary
  generalize roundDiv (d.num * (2 ^ t.fractional : Nat)) d.k = r at *
  have hlo : -((2 ^ (8 * t.size - 1) : Nat) : Int) ≤ r * (2 ^ (t.size * 8 - t.utilBits) : Nat) := by
    rw [← hsumI]; nlinarith
  have hhi : r * (2 ^ (t.size * 8 - t.utilBits) : Nat) < ((2 ^ (8 * t.size - 1) : Nat) : Int) := by
    rw [← hsumI]; nlinarith
  have hv : (BitVec.ofInt 32 r <<< (t.size * 8 - t.utilBits)).toInt
      = r * (2 ^ (t.size * 8 - t.utilBits) : Nat) := by
    have he : BitVec.ofInt 32 r <<< (t.size * 8 - t.utilBits)
        = BitVec.ofInt 32 (r * (2 ^ (t.size * 8 - t.utilBits) : Nat)) := by
      rw [BitVec.shiftLeft_eq_mul_twoPow, BitVec.ofInt_mul]
      congr 1
      apply BitVec.eq_of_toNat_eq
      rw [BitVec.toNat_twoPow, BitVec.ofInt_natCast, BitVec.toNat_ofNat]
    rw [he, BitVec.toInt_ofInt]
    generalize r * ((2 ^ (t.size * 8 - t.utilBits) : Nat) : Int) = y at *
    rcases wf.size with e | e | e <;> rw [e] at hlo hhi <;> simp [Int.bmod_def] at hlo hhi ⊢ <;> omega
  rw [hv]
  exact ⟨rfl, hlo, hhi⟩

/-- What reading the stored bits gives. -/
theorem FixedType.toDbl_toBinary (t : FixedType) (wf : t.WF) (d : Dbl) (h : t.inRange d = true) :
    t.toDbl (t.toBinary d) =
      { num := roundDiv (d.num * (2 ^ t.fractional : Nat)) d.k, k := t.fractional } := by
  unfold FixedType.toDbl
  rw [BitVec.toInt_sshiftRight, (t.toBinary_toInt wf d h).1, Int.shiftRight_eq_div_pow]
  congr 1
  have hS : ((2 ^ (t.size * 8 - t.utilBits) : Nat) : Int) ≠ 0 := by
    have := Nat.two_pow_pos (t.size * 8 - t.utilBits); omega
  have := Int.mul_ediv_cancel (roundDiv (d.num * (2 ^ t.fractional : Nat)) d.k) hS
  exact_mod_cast this

end PF

namespace PF

/-- The integer type with the same storage and the full range. -/
def FixedType.rawInt (t : FixedType) : IntType :=
  { signed := true, size := t.size, min := -(2 ^ (8 * t.size - 1) : Nat),
    max := (2 ^ (8 * t.size - 1) : Nat) - 1 }

theorem FixedType.rawInt_wf (t : FixedType) (wf : t.WF) : t.rawInt.WF := by
  refine ⟨wf.size, ?_, ?_, ?_⟩
  · unfold FixedType.rawInt
    rcases wf.size with e | e | e <;> simp only [e] <;> decide
  · simp [FixedType.rawInt, IntType.bits]
  · simp only [FixedType.rawInt, IntType.bits, if_true]; omega

theorem isEncodable_unsigned {size : Nat} (hsz : size = 1 ∨ size = 2 ∨ size = 4) (v : BitVec 32) :
    isEncodable size v false = true ↔ v.toNat < 2 ^ (8 * size) := by
  have := v.isLt
  unfold isEncodable
  rcases hsz with rfl | rfl | rfl
  · simp only [Nat.one_mul]
    norm_num
    rw [← BitVec.toNat_inj]; simp [BitVec.toNat_ushiftRight, Nat.shiftRight_eq_div_pow]
  · norm_num
    rw [← BitVec.toNat_inj]; simp [BitVec.toNat_ushiftRight, Nat.shiftRight_eq_div_pow]
  · simp; omega

theorem isEncodable_signed {size : Nat} (hsz : size = 1 ∨ size = 2 ∨ size = 4) (v : BitVec 32) :
    isEncodable size v true = true ↔ FitsSigned size v.toInt := by
  have hlt := v.isLt
  have hi := BitVec.toInt_eq_toNat_bmod v
  unfold isEncodable FitsSigned
  have hbit : ∀ k, k < 32 → (v &&& (1#32 <<< k) = 0#32 ↔ v.toNat / 2 ^ k % 2 = 0) := by
    intro k hk
    have h1 : (1#32 <<< k) = BitVec.twoPow 32 k := by
      rw [BitVec.twoPow_eq]
    rw [h1, BitVec.and_twoPow]
    have h2 : v.getLsbD k = decide (v.toNat / 2 ^ k % 2 = 1) := by
      rw [← BitVec.testBit_toNat, Nat.testBit_eq_decide_div_mod_eq]
    rw [h2]
    constructor
    · intro h
      by_contra hc
      have : v.toNat / 2 ^ k % 2 = 1 := by omega
      rw [this] at h
      simp at h
      have h3 := congrArg BitVec.toNat h
      rw [BitVec.toNat_twoPow] at h3
      rw [Nat.mod_eq_of_lt (Nat.pow_lt_pow_right (by decide) hk)] at h3
      have := Nat.two_pow_pos k
      simp at h3
    · intro h
      rw [h]; simp
  have hnot : (~~~v).toNat = 4294967295 - v.toNat := by
    rw [BitVec.toNat_not]
  have hz : ∀ (w : BitVec 32) k, w >>> k = 0#32 ↔ w.toNat / 2 ^ k = 0 := by
    intro w k
    rw [← BitVec.toNat_inj, BitVec.toNat_ushiftRight, Nat.shiftRight_eq_div_pow]
    simp
  rw [Int.bmod_def] at hi
  rcases hsz with rfl | rfl | rfl
  · rw [if_neg (by decide), if_neg (by simp)]
    split
    · rename_i hc
      rw [bne_iff_ne, Ne, hbit 7 (by decide)] at hc
      rw [decide_eq_true_eq, hz, hnot]
      norm_num at hi hc ⊢
      omega
    · rename_i hc
      rw [bne_iff_ne, Ne, not_not, hbit 7 (by decide)] at hc
      rw [decide_eq_true_eq, hz]
      norm_num at hi hc ⊢
      omega
  · rw [if_neg (by decide), if_neg (by simp)]
    split
    · rename_i hc
      rw [bne_iff_ne, Ne, hbit 15 (by decide)] at hc
      rw [decide_eq_true_eq, hz, hnot]
      norm_num at hi hc ⊢
      omega
    · rename_i hc
      rw [bne_iff_ne, Ne, not_not, hbit 15 (by decide)] at hc
      rw [decide_eq_true_eq, hz]
      norm_num at hi hc ⊢
      omega
  · norm_num at hi ⊢
    omega

end PF

namespace PF

theorem convertTo_unsigned_narrow {size : Nat} (hsz : size = 1 ∨ size = 2 ∨ size = 4) (text : Str) (n : Int) :
    convertTo false (8 * size) text = some n ↔
      convertTo false 32 text = some n ∧ n < (2 ^ (8 * size) : Nat) := by
  rw [convertTo_iff, convertTo_iff]
  simp only [Bool.false_eq_true, if_false]
  have h32 : n < (2 ^ (8 * size) : Nat) → n < (2 ^ 32 : Nat) := by
    rcases hsz with rfl | rfl | rfl <;> norm_num <;> omega
  constructor
  · rintro ⟨h1, h2⟩; exact ⟨⟨h1, h32 h2⟩, h2⟩
  · rintro ⟨⟨h1, _⟩, h2⟩; exact ⟨h1, h2⟩

theorem convertTo_signed_narrow {size : Nat} (hsz : size = 1 ∨ size = 2 ∨ size = 4) (text : Str) (n : Int) :
    convertTo true (8 * size) text = some n ↔
      convertTo true 32 text = some n ∧ FitsSigned size n := by
  rw [convertTo_signed_iff, convertTo_signed_iff]
  unfold FitsSigned
  constructor
  · rintro ⟨h1, h2, h3⟩
    refine ⟨⟨h1, ?_, ?_⟩, h2, h3⟩ <;> clear h1 <;>
      rcases hsz with rfl | rfl | rfl <;> norm_num at h2 h3 ⊢ <;> omega
  · rintro ⟨⟨h1, _⟩, h2⟩; exact ⟨h1, h2⟩

theorem convertTo_unsigned_nonneg {bits : Nat} {text : Str} {n : Int}
    (h : convertTo false bits text = some n) : 0 ≤ n := by
  rw [convertTo_iff] at h
  obtain ⟨h, _⟩ := h
  rcases h with ⟨m, _, rfl⟩ | ⟨_, m, _, _, rfl⟩ | ⟨_, m, h, _⟩ | ⟨_, m, _, _, rfl⟩
  · omega
  · omega
  · simp at h
  · omega

theorem FixedType.fromText_raw (t : FixedType) (wf : t.WF) (rd : Reader) (hex : Bool)
    (text : Str) : t.fromText rd ⟨true, hex⟩ text = t.rawInt.fromText text := by
  have hsz := wf.size
  have hrange : ∀ n : Int, t.rawInt.inRange (Int.bmod n (2 ^ (8 * t.size))) = true := by
    intro n
    have h1 := @Int.le_bmod n (2 ^ (8 * t.size)) (Nat.two_pow_pos _)
    have h2 := @Int.bmod_lt n (2 ^ (8 * t.size)) (Nat.two_pow_pos _)
    unfold IntType.inRange FixedType.rawInt
    simp only [Bool.not_eq_true', Bool.or_eq_false_iff, decide_eq_false_iff_not]
    rcases hsz with e | e | e <;> simp only [e] at h1 h2 ⊢ <;> norm_num at h1 h2 ⊢ <;> omega
  have hct : ∀ n, t.rawInt.toCType n = Int.bmod n (2 ^ (8 * t.size)) := by
    intro n; simp [IntType.toCType, FixedType.rawInt]
  unfold FixedType.fromText IntType.fromText
  have hs : t.rawInt.signed = true := rfl
  have hsize : t.rawInt.size = t.size := rfl
  simp only [hs, hsize, Bool.true_and, Bool.not_true, Bool.and_false, if_true, hct, hrange]
  rw [if_neg (by simp)]
  by_cases hx : isHexadecimal text = true
  · simp only [hx, if_true]
    cases hn : convertTo false (8 * t.size) text with
    | some n =>
      obtain ⟨h1, h2⟩ := (convertTo_unsigned_narrow hsz text n).1 hn
      have h0 := convertTo_unsigned_nonneg h1
      rw [h1]
      simp only
      rw [if_pos]
      · rw [← signExtend_ofInt hsz, BitVec.ofInt_toInt]
      · rw [isEncodable_unsigned hsz, BitVec.toNat_ofInt]
        clear hn h1 hrange hct hs hsize
        rcases hsz with e | e | e <;> rw [e] at h2 ⊢ <;> norm_num at h2 ⊢ <;> omega
    | none =>
      cases h1 : convertTo false 32 text with
      | none => rfl
      | some n =>
        simp only
        rw [if_neg]
        rw [isEncodable_unsigned hsz, BitVec.toNat_ofInt]
        intro hlt
        have h0 := convertTo_unsigned_nonneg h1
        have h2 := h1
        rw [convertTo_iff] at h2
        have h3 := h2.2
        simp only [Bool.false_eq_true, if_false] at h3
        have : n < (2 ^ (8 * t.size) : Nat) := by
          clear hn h1 hrange hct hs hsize h2
          rcases hsz with e | e | e <;> rw [e] at hlt ⊢ <;> norm_num at hlt h3 ⊢ <;> omega
        have h4 := (convertTo_unsigned_narrow hsz text n).2 ⟨h1, this⟩
        rw [hn] at h4; simp at h4
  · rw [Bool.not_eq_true] at hx
    simp only [hx, Bool.false_eq_true, if_false]
    cases hn : convertTo true (8 * t.size) text with
    | some n =>
      obtain ⟨h1, h2⟩ := (convertTo_signed_narrow hsz text n).1 hn
      rw [h1]
      have hoi : (BitVec.ofInt 32 n).toInt = n := by
        rw [convertTo_signed_iff] at h1
        have h3 := h1.2
        rw [BitVec.toInt_ofInt, Int.bmod_def]
        norm_num at h3 ⊢; omega
      simp only
      rw [if_pos, bmod_of_fits hsz h2]
      · rw [isEncodable_signed hsz, hoi]; exact h2
    | none =>
      cases h1 : convertTo true 32 text with
      | none => simp
      | some n =>
        have hoi : (BitVec.ofInt 32 n).toInt = n := by
          rw [convertTo_signed_iff] at h1
          have h3 := h1.2
          rw [BitVec.toInt_ofInt, Int.bmod_def]
          norm_num at h3 ⊢; omega
        simp only
        rw [if_neg]
        rw [isEncodable_signed hsz, hoi]
        intro hf
        have h4 := (convertTo_signed_narrow hsz text n).2 ⟨h1, hf⟩
        rw [hn] at h4; simp at h4

theorem FixedType.toText_raw (t : FixedType) (hex : Bool) (v : BitVec 32) :
    t.toText ⟨true, hex⟩ v = t.rawInt.toText ⟨true, hex⟩ v := by
  cases hex <;> simp [FixedType.toText, IntType.toText, FixedType.rawInt]

theorem numeral_fracDigits (m : Nat) (n : Nat) (h : n < 10 ^ (m + 1)) :
    Numeral 10 (fracDigits (m + 1) n) n ∧ (fracDigits (m + 1) n).length = m + 1 := by
  induction m generalizing n with
  | zero =>
    have : n % 10 = n := Nat.mod_eq_of_lt (by simpa using h)
    simp only [fracDigits, List.nil_append, this]
    exact ⟨.single (isDigit_digitChar (by decide) (by simpa using h)), rfl⟩
  | succ m ih =>
    have hlt : n / 10 < 10 ^ (m + 1) := by
      rw [Nat.div_lt_iff_lt_mul (by decide), ← Nat.pow_succ]
      exact h
    obtain ⟨h1, h2⟩ := ih (n / 10) hlt
    rw [fracDigits]
    refine ⟨?_, by rw [List.length_append, h2]; rfl⟩
    have := Numeral.more h1 (isDigit_digitChar (base := 10) (by decide) (Nat.mod_lt n (by decide)))
    rwa [Nat.mul_comm, Nat.div_add_mod] at this

theorem decimalText_fixedText (m : Nat) (num : Int) :
    DecimalText (fixedText m num) ((num : Rat) / (2 ^ m : Nat)) := by
  have hm : ((2 ^ m : Nat) : Rat) ≠ 0 := by positivity
  have h10 : ((10 ^ m : Nat) : Rat) = ((2 ^ m : Nat) : Rat) * ((5 ^ m : Nat) : Rat) := by
    rw [← Nat.cast_mul, ← Nat.mul_pow]
  have h5 : ((5 ^ m : Nat) : Rat) ≠ 0 := by positivity
  have hval : ((num.natAbs / 2 ^ m : Nat) : Rat) +
      ((num.natAbs % 2 ^ m * 5 ^ m : Nat) : Rat) / (10 ^ m : Nat) = (num.natAbs : Rat) / (2 ^ m : Nat) := by
    rw [h10, Nat.cast_mul]
    have e := Nat.div_add_mod num.natAbs (2 ^ m)
    have e' : ((2 ^ m : Nat) : Rat) * ((num.natAbs / 2 ^ m : Nat) : Rat) + ((num.natAbs % 2 ^ m : Nat) : Rat)
        = (num.natAbs : Rat) := by exact_mod_cast e
    rw [← e']
    generalize ((num.natAbs / 2 ^ m : Nat) : Rat) = A
    generalize ((num.natAbs % 2 ^ m : Nat) : Rat) = B
    field_simp
  have habs : (num : Rat) = if num < 0 then -(num.natAbs : Rat) else (num.natAbs : Rat) := by
    split
    · have : num = -(num.natAbs : Int) := by omega
      exact_mod_cast congrArg (Int.cast : Int → Rat) this
    · have : (num.natAbs : Int) = num := by omega
      rw [← Int.cast_natCast, this]
  unfold fixedText
  dsimp only
  rcases Nat.eq_zero_or_pos m with hm0 | hmp
  · subst hm0
    simp only [if_true, List.append_nil, Nat.pow_zero, Nat.div_one]
    split
    · rename_i hneg
      rw [habs, if_pos hneg]
      have := DecimalText.negInt (numeral_natText num.natAbs)
      simpa using this
    · rename_i hneg
      rw [habs, if_neg hneg]
      have := DecimalText.int (numeral_natText num.natAbs)
      simpa using this
  · obtain ⟨k, rfl⟩ : ∃ k, m = k + 1 := ⟨m - 1, by omega⟩
    rw [if_neg (show ¬ (k + 1 = 0) by omega)]
    have hfp : num.natAbs % 2 ^ (k + 1) * 5 ^ (k + 1) < 10 ^ (k + 1) := by
      have : (10 : Nat) ^ (k + 1) = 2 ^ (k + 1) * 5 ^ (k + 1) := by rw [← Nat.mul_pow]
      rw [this]
      exact Nat.mul_lt_mul_of_pos_right (Nat.mod_lt _ (Nat.two_pow_pos _)) (Nat.pow_pos (by decide))
    obtain ⟨hn, hlen⟩ := numeral_fracDigits k _ hfp
    have hlen' : ((10 ^ (fracDigits (k + 1) (num.natAbs % 2 ^ (k + 1) * 5 ^ (k + 1))).length : Nat) : Rat)
        = (10 ^ (k + 1) : Nat) := by rw [hlen]
    split
    · rename_i hneg
      have := DecimalText.negFrac (numeral_natText (num.natAbs / 2 ^ (k + 1))) hn
      rw [hlen', hval] at this
      rw [habs, if_pos hneg, neg_div]
      simpa using this
    · rename_i hneg
      have := DecimalText.frac (numeral_natText (num.natAbs / 2 ^ (k + 1))) hn
      rw [hlen', hval] at this
      rw [habs, if_neg hneg]
      simpa using this

end PF
