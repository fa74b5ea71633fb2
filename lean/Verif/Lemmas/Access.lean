import Verif.Spec.Access
import Verif.Props.Integer
import Verif.Props.Enum
import Verif.Props.FixedPoint
import Verif.Lemmas.Manager
import Verif.Lemmas.XmlScalar

/-! # Lemmas on the text access to scalar parameters -/

namespace PF
open Spec

theorem memValue_signed_encLE {size : Nat} (hsz : size = 1 ∨ size = 2 ∨ size = 4) {v : BitVec 32}
    (h : FitsSigned size v.toInt) : memValue true (encLE size v.toNat) = v.toInt := by
  unfold memValue
  rw [if_pos rfl, encLE_length, decLE_encLE, pow256]
  conv => rhs; rw [← bmod_of_fits hsz h]
  have := v.isLt
  have hi := BitVec.toInt_eq_toNat_bmod v
  rw [hi]
  rcases hsz with e | e | e <;> subst e <;> simp [Int.bmod_def] <;> omega

theorem memValue_signed_fits {size : Nat} (hsz : size = 1 ∨ size = 2 ∨ size = 4) {bs : List Byte}
    (hl : bs.length = size) : FitsSigned size (memValue true bs) := by
  have hlt := decLE_lt bs
  rw [hl, pow256] at hlt
  unfold memValue FitsSigned
  rw [if_pos rfl, hl]
  rcases hsz with e | e | e <;> subst e <;> simp [Int.bmod_def] at hlt ⊢ <;> omega

theorem natDigits_length {base : Nat} (hb : 2 ≤ base) (fuel : Nat) : ∀ (w n : Nat), 0 < w → n < base ^ w → n < fuel →
    (natDigits base fuel n).length ≤ w := by
  induction fuel with
  | zero => intro w n _ _ h; omega
  | succ f ih =>
    intro w n hw hn hf
    simp only [natDigits]
    split
    · simp; omega
    · rename_i hlt
      have hw2 : 2 ≤ w := by
        rcases Nat.lt_or_ge w 2 with h | h
        · have : w = 1 := by omega
          subst this; simp at hn; omega
        · exact h
      simp only [List.length_append, List.length_singleton]
      have := ih (w - 1) (n / base) (by omega) (by
        rw [Nat.div_lt_iff_lt_mul (by omega), ← Nat.pow_succ]
        rwa [show (w - 1).succ = w by omega]) (by
        have : n / base < n := Nat.div_lt_self (by omega) (by omega)
        omega)
      omega

theorem hexText_shown {size : Nat} (hs : 0 < size) {bs : List Byte} (hl : bs.length = size) :
    Hexadecimal (2 * size) (decLE bs) (hexText (size * 2) (decLE bs)) := by
  have hlt := decLE_lt bs
  rw [hl] at hlt
  refine ⟨List.replicate (size * 2 - (natDigits 16 (decLE bs + 1) (decLE bs)).length) '0' ++
    natDigits 16 (decLE bs + 1) (decLE bs), by simp [hexText], ?_, ?_⟩
  · have := natDigits_length (base := 16) (by decide) (decLE bs + 1) (size * 2) (decLE bs) (by omega)
      (by rw [Nat.mul_comm, Nat.pow_mul]; exact hlt) (by omega)
    simp only [List.length_append, List.length_replicate]
    omega
  · obtain ⟨t, h1, h2⟩ := numeral_hexText (size * 2) (decLE bs)
    simp only [hexText, List.cons_append, List.nil_append, List.cons.injEq, true_and] at h1
    rw [h1]; exact h2

theorem toNat_decLE {size : Nat} (hsz : size = 1 ∨ size = 2 ∨ size = 4) {bs : List Byte} (hl : bs.length = size) :
    (BitVec.ofNat 32 (decLE bs)).toNat = decLE bs := by
  have hlt := decLE_lt bs
  rw [hl, pow256] at hlt
  rw [BitVec.toNat_ofNat]; apply Nat.mod_eq_of_lt
  rcases hsz with e | e | e <;> subst e <;> simp at hlt ⊢ <;> omega

theorem signExtend_decLE {size : Nat} (hsz : size = 1 ∨ size = 2 ∨ size = 4) {bs : List Byte} (hl : bs.length = size) :
    (signExtend size (BitVec.ofNat 32 (decLE bs))).toInt = memValue true bs := by
  rw [signExtend_toInt hsz, toNat_decLE hsz hl]
  unfold memValue
  rw [if_pos rfl, hl]

theorem readDbl_val (t : FixedType) (wf : t.WF) {bs : List Byte} (hl : bs.length = t.size) :
    ((t.readDbl (BitVec.ofNat 32 (decLE bs))).num : Int) =
      memValue true bs / ((2 ^ (8 * t.size - (t.integral + t.fractional + 1)) : Nat) : Int) := by
  unfold FixedType.readDbl FixedType.toDbl
  simp only
  rw [BitVec.toInt_sshiftRight, Int.shiftRight_eq_div_pow, signExtend_decLE wf.size hl, FixedType.utilBits,
    Nat.mul_comm t.size 8]

/-- What is shown. -/
theorem ScalarType.toText_shown {t : ScalarType} (hs : Sound t) (raw hex : Bool) {bs : List Byte}
    (hl : bs.length = t.size)
    (hx : ∀ u, t = .enum u → u.size = 4 → ¬ (raw = true ∧ hex = true)) :
    ∃ out, t.toText ⟨raw, hex⟩ (BitVec.ofNat 32 (decLE bs)) = .ok out ∧ Shown raw hex bs out t := by
  cases t with
  | bool =>
    refine ⟨_, rfl, ?_⟩
    simp only [ScalarType.size] at hl
    have h0 : BitVec.ofNat 32 (decLE bs) = 0#32 ↔ decLE bs = 0 := by
      rw [← BitVec.toNat_inj, toNat_decLE (.inl rfl) hl]; simp
    unfold Shown boolToText
    simp only [ne_eq, h0]
    by_cases h : decLE bs = 0 <;> cases raw <;> cases hex <;> simp [h]
  | int t =>
    refine ⟨_, rfl, ?_⟩
    simp only [ScalarType.size] at hl
    have hpos : 0 < t.size := by rcases hs.size with e | e | e <;> omega
    simp only [Shown]
    by_cases h : raw = true ∧ hex = true
    · rw [if_pos h]
      unfold IntType.toText
      simp only [h.1, h.2, Bool.and_self, if_true]
      rw [toNat_decLE hs.size hl]
      exact hexText_shown hpos hl
    · rw [if_neg h]
      exact t.toText_decimal hs ⟨raw, hex⟩ bs hl h
  | enum t =>
    simp only [ScalarType.size] at hl
    have hsz : t.size = 1 ∨ t.size = 2 ∨ t.size = 4 := hs
    simp only [ScalarType.toText]
    unfold EnumType.toText Shown
    cases raw with
    | true =>
      cases hex with
      | true =>
        have h4 : t.size ≠ 4 := fun e => hx t rfl e ⟨rfl, rfl⟩
        have hlt := decLE_lt bs
        rw [hl, pow256] at hlt
        simp only [if_true]
        rw [if_neg (by omega)]
        refine ⟨_, rfl, ?_⟩
        have hmask : (BitVec.ofNat 32 (decLE bs) &&& (1#32 <<< (t.size * 8) - 1#32)).toNat = decLE bs := by
          rw [BitVec.toNat_and, toNat_decLE hsz hl]
          have hm : (1#32 <<< (t.size * 8) - 1#32).toNat = 2 ^ (8 * t.size) - 1 := by
            rcases hsz with e | e | e
            · rw [e]; decide
            · rw [e]; decide
            · exact absurd e h4
          rw [hm, Nat.and_two_pow_sub_one_eq_mod, Nat.mod_eq_of_lt hlt]
        rw [hmask]
        exact hexText_shown (by omega) hl
      | false =>
        simp only [Bool.false_eq_true, if_false, if_true]
        exact ⟨_, rfl, by rw [toNat_decLE hsz hl]; exact numeral_natText _⟩
    | false =>
      simp only [Bool.false_eq_true, if_false]
      refine ⟨_, rfl, ?_⟩
      have hse := signExtend_decLE hsz hl
      unfold EnumType.literal
      cases hf : t.pairs.find? (fun p => p.2 == signExtend t.size (BitVec.ofNat 32 (decLE bs))) with
      | none =>
        refine .inr ⟨rfl, ?_⟩
        rintro ⟨p, hp, hpe⟩
        have := List.find?_eq_none.1 hf p hp
        simp only [beq_iff_eq] at this
        exact this (BitVec.eq_of_toInt_eq (by rw [hpe, hse]))
      | some q =>
        obtain ⟨l, w⟩ := q
        obtain ⟨he, x, y, hxy, hz⟩ := (find_first _ _ _).1 hf
        simp only [beq_iff_eq] at he
        refine .inl ⟨x, w, y, hxy, by rw [he, hse], ?_⟩
        intro p hp
        have := hz p hp
        rw [he]
        simpa using this
  | fixed t =>
    refine ⟨_, rfl, ?_⟩
    simp only [ScalarType.size] at hl
    have hpos : 0 < t.size := by rcases hs.size with e | e | e <;> omega
    unfold Shown FixedType.toText
    cases raw with
    | true =>
      cases hex with
      | true =>
        simp only [if_true]
        rw [toNat_decLE hs.size hl]
        exact hexText_shown hpos hl
      | false =>
        simp only [if_true, Bool.false_eq_true, if_false]
        rw [signExtend_decLE hs.size hl]
    | false =>
      simp only [Bool.false_eq_true, if_false]
      have := decimalText_fixedText t.fractional (t.readDbl (BitVec.ofNat 32 (decLE bs))).num
      rw [readDbl_val t hs hl] at this ⊢
      exact this
  | float t =>
    refine ⟨_, rfl, ?_⟩
    simp only [ScalarType.size] at hl
    have hn := toNat_decLE (.inr (.inr rfl)) hl
    unfold Shown FloatType.toText
    cases raw with
    | true =>
      cases hex with
      | true =>
        simp only [if_true]
        rw [hn]
        exact showbaseHex_spec _
      | false =>
        simp only [if_true, Bool.false_eq_true, if_false]
        rw [hn]
        exact numeral_natText _
    | false =>
      simp only [Bool.false_eq_true, if_false]
      rw [show f32Mem bs = BitVec.ofNat 32 (decLE bs) from rfl]
      generalize BitVec.ofNat 32 (decLE bs) = v
      by_cases hf : F32Finite v
      · rw [if_pos hf]
        exact f32Text_real ((f32Finite_iff v).2 hf)
      · rw [if_neg hf]
        have hf' : f32Finite v = false := by
          rw [← Bool.not_eq_true, f32Finite_iff]; exact hf
        unfold f32Text
        simp only [hf', Bool.not_false, if_true]
        cases v.msb <;> by_cases h0 : f32Man v = 0 <;> simp [h0, s]

theorem FixedType.rawInt_range {t : FixedType} (n : Int) :
    FitsSigned t.size n ↔ t.rawInt.min ≤ n ∧ n ≤ t.rawInt.max := by
  simp only [FitsSigned, FixedType.rawInt]; omega

/-- What is accepted stands for the bytes written. -/
theorem ScalarType.fromText_stands {rd : Reader} {t : ScalarType} (hs : Sound t) {ctx : Ctx} {text : Str}
    {v : BitVec 32} (h : t.fromText rd ctx text = some v) : Stands rd ctx.raw text (encLE t.size v.toNat) t := by
  cases t with
  | bool =>
    simp only [ScalarType.fromText, boolFromText] at h
    simp only [Stands, ScalarType.size]
    split at h
    · rename_i h1; cases h; exact .inl ⟨h1, by decide⟩
    · split at h
      · rename_i h1; cases h; exact .inr ⟨h1, by decide⟩
      · cases h
  | int t =>
    obtain ⟨n, h1, h2, h3, rfl⟩ := (t.fromText_iff hs text v).1 h
    simp only [Stands, ScalarType.size]
    rw [memValue_encLE t hs h2 h3]
    exact ⟨encLE_length _ _, h1, h2, h3⟩
  | enum t =>
    obtain ⟨n, h1, h2, h3, h4⟩ := (t.fromText_iff hs ctx text v).1 h
    simp only [Stands, ScalarType.size]
    rw [memValue_signed_encLE hs h4]
    exact ⟨encLE_length _ _, h3, n, h1, h2⟩
  | fixed t =>
    simp only [Stands, ScalarType.size]
    refine ⟨encLE_length _ _, ?_⟩
    obtain ⟨raw, hex⟩ := ctx
    cases raw with
    | true =>
      simp only [if_true]
      simp only [ScalarType.fromText] at h
      rw [t.fromText_raw hs] at h
      obtain ⟨n, h1, h2, h3, rfl⟩ := (t.rawInt.fromText_iff (t.rawInt_wf hs) text v).1 h
      have := memValue_encLE t.rawInt (t.rawInt_wf hs) h2 h3
      simp only [FixedType.rawInt] at this
      rw [this]
      exact h1
    | false =>
      simp only [Bool.false_eq_true, if_false]
      simp only [ScalarType.fromText, FixedType.fromText, Bool.not_false, Bool.and_true, Bool.false_eq_true,
        if_false] at h
      split at h
      · cases h
      · rename_i hx
        refine ⟨(isHexadecimal_false text).1 (by simpa using hx), ?_⟩
        split at h
        · cases h
        · rename_i d hd
          have h' := h
          simp only [FixedType.fromDbl] at h
          split at h
          · rename_i hin
            cases h
            have hreal := (t.inRange_iff d).1 hin
            obtain ⟨hti, hfit⟩ := t.toBinary_toInt hs d hin
            have hmv := memValue_signed_encLE hs.size hfit
            have hl := encLE_length t.size (t.toBinary d).toNat
            have hself := Board.read_self (encLE t.size (t.toBinary d).toNat)
            rw [hl] at hself
            obtain ⟨b', r, g1, g2, _, g4, _, g6, _⟩ :=
              C38_set_then_get t hs (encLE t.size (t.toBinary d).toNat) 0 (by rw [hl]; omega) d hreal
            have hval : fixedValue t (encLE t.size (t.toBinary d).toNat) = r.val := by
              have hb : b' = encLE t.size (t.toBinary d).toNat := by
                unfold setDbl writeScalar at g1
                rw [h'] at g1
                simp only at g1
                split at g1
                · rename_i b'' hw
                  simp only [Out.ok.injEq] at g1
                  subst g1
                  have hw1 := Board.read_write_same hw
                  have hw2 := (Board.write_length hw).1
                  have h3 := Board.read_self b''
                  rw [hw2, hl] at h3
                  rw [hl] at hw1
                  rw [hw1] at h3
                  exact (Option.some.inj h3).symm
                · cases g1
              rw [hb] at g2
              unfold getDbl readScalar at g2
              rw [hself] at g2
              simp only [Out.bind, Out.ok.injEq] at g2
              rw [← g2]
              unfold fixedValue Dbl.val
              rw [readDbl_val t hs hl]
              rfl
            refine ⟨d, hd, hreal, ?_, ?_, ?_⟩
            · rw [hval]; exact g4
            · rw [hval]; exact g6
            · rw [hmv, hti, FixedType.utilBits, Nat.mul_comm t.size 8]
              exact Int.dvd_mul_left _ _
          · cases h
  | float t =>
    simp only [Stands, ScalarType.size]
    have hm : decLE (encLE 4 v.toNat) = v.toNat := by rw [decLE_encLE]; exact Nat.mod_eq_of_lt v.isLt
    have hv : f32Mem (encLE 4 v.toNat) = v := by
      unfold f32Mem
      rw [hm, BitVec.ofNat_toNat, BitVec.setWidth_eq]
    rw [hv, hm]
    refine ⟨encLE_length _ _, ?_⟩
    obtain ⟨raw, hex⟩ := ctx
    cases raw with
    | true =>
      simp only [if_true]
      exact ((t.fromText_raw rd hex text v).1 h).symm
    | false =>
      simp only [Bool.false_eq_true, if_false]
      obtain ⟨h1, h2, h3⟩ := (t.fromText_real rd hex text v).1 h
      exact ⟨h3, (isHexadecimal_false text).1 h1, h2⟩

/-- A text that stands for something is accepted. -/
theorem ScalarType.fromText_of_stands {rd : Reader} {t : ScalarType} (hs : Sound t) {ctx : Ctx} {text : Str}
    {bs : List Byte} (h : Stands rd ctx.raw text bs t) : ∃ v, t.fromText rd ctx text = some v := by
  cases t with
  | bool =>
    simp only [ScalarType.fromText, boolFromText]
    rcases h with ⟨h, _⟩ | ⟨h, _⟩
    · rw [if_pos h]; exact ⟨_, rfl⟩
    · rw [if_pos h]; split <;> exact ⟨_, rfl⟩
  | int t =>
    obtain ⟨_, h1, h2, h3⟩ := h
    exact ⟨_, (t.fromText_iff hs text _).2 ⟨_, h1, h2, h3, rfl⟩⟩
  | enum t =>
    obtain ⟨hl, ⟨p, hp, hpe⟩, n, h1, h2⟩ := h
    exact ⟨p.2, (t.fromText_iff hs ctx text _).2 ⟨n, h1, by rw [hpe, h2], ⟨p, hp, rfl⟩, by
      rw [hpe]; exact memValue_signed_fits hs hl⟩⟩
  | fixed t =>
    obtain ⟨hl, h⟩ := h
    obtain ⟨raw, hex⟩ := ctx
    cases raw with
    | true =>
      simp only [if_true] at h
      simp only [ScalarType.fromText]
      rw [t.fromText_raw hs]
      have := (FixedType.rawInt_range _).1 (memValue_signed_fits hs.size hl)
      exact ⟨_, (t.rawInt.fromText_iff (t.rawInt_wf hs) text _).2 ⟨_, h, this.1, this.2, rfl⟩⟩
    | false =>
      simp only [Bool.false_eq_true, if_false] at h
      obtain ⟨hx, d, hd, hr, _⟩ := h
      simp only [ScalarType.fromText, FixedType.fromText, Bool.not_false, Bool.and_true, Bool.false_eq_true,
        if_false, (isHexadecimal_false text).2 hx, hd, FixedType.fromDbl, (t.inRange_iff d).2 hr, if_true]
      exact ⟨_, rfl⟩
  | float t =>
    obtain ⟨hl, h1, h2⟩ := h
    refine ⟨f32Mem bs, ?_⟩
    obtain ⟨raw, hex⟩ := ctx
    cases raw with
    | true =>
      simp only [if_true] at h2
      have hn := toNat_decLE (.inr (.inr rfl)) hl
      exact (t.fromText_raw rd hex text _).2 ⟨by rw [show (f32Mem bs).toNat = decLE bs from hn]; exact h2, h1⟩
    | false =>
      simp only [Bool.false_eq_true, if_false] at h2
      exact (t.fromText_real rd hex text _).2 ⟨(isHexadecimal_false text).2 h2.1, h2.2, h1⟩

end PF
