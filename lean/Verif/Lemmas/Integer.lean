import Verif.Lemmas.Scalar
import Verif.Spec.Scalar

/-! Helper lemmas about integer parameters. -/

namespace PF

theorem IntType.size_bits {t : IntType} (wf : t.WF) :
    (t.size = 1 ∧ t.bits = 8) ∨ (t.size = 2 ∧ t.bits = 16) ∨ (t.size = 4 ∧ t.bits = 32) := by
  rcases wf.size with h | h | h <;> simp [IntType.bits, h]

theorem isHexadecimal_0x (u : Str) : isHexadecimal ('0' :: 'x' :: u) = true := by
  simp [isHexadecimal]

theorem Numeral.notHex {base : Nat} {t : Str} {n : Nat} (h : Numeral base t n) :
    isHexadecimal t = true → ∃ u, t = '0' :: 'X' :: u := by
  intro hh
  unfold isHexadecimal at hh
  rw [Bool.or_eq_true] at hh
  rcases hh with hh | hh
  · exact absurd (of_decide_eq_true hh) h.dec_hex
  · have := of_decide_eq_true hh
    refine ⟨t.drop 2, ?_⟩
    have e := List.take_append_drop 2 t
    rw [this] at e
    exact e.symm

theorem Numeral.no0X {base : Nat} {u : Str} {n : Nat} :
    ¬ Numeral base ('0' :: 'X' :: u) n := by
  intro h
  obtain ⟨d, hd⟩ := h.chars.2 'X' (by simp)
  have key : ∀ p ∈ digitTable, p.1 ≠ 'X' := by decide
  exact key _ hd.2 rfl

theorem IntType.fromText_iff (t : IntType) (wf : t.WF) (text : Str) (v : BitVec 32) :
    t.fromText text = some v ↔
      ∃ n : Int, Denotes t.signed t.bits text n ∧ t.min ≤ n ∧ n ≤ t.max ∧ v = BitVec.ofInt 32 n := by
  have hsz := t.size_bits wf
  have hlow := wf.low
  have hhigh := wf.high
  -- what the conversion gives
  let inter := if t.signed && isHexadecimal text then convertTo false (8 * t.size) text
    else convertTo t.signed (8 * t.size) text
  have hF : t.fromText text = match inter with
      | none => none
      | some n => if t.inRange (t.toCType n) then some (BitVec.ofInt 32 (t.toCType n)) else none := rfl
  have hrange : ∀ n, t.inRange n = true ↔ t.min ≤ n ∧ n ≤ t.max := by
    intro n; simp [IntType.inRange]
  -- the conversion accepts what the text denotes, up to the cast
  have key : ∀ n : Int, (∃ m, inter = some m ∧ t.toCType m = n) ↔
      (Denotes t.signed t.bits text n ∧
        (if t.signed then -(2 ^ (t.bits - 1) : Nat) ≤ n ∧ n < (2 ^ (t.bits - 1) : Nat)
          else n < (2 ^ t.bits : Nat))) := by
    intro n
    simp only [inter]
    cases hs : t.signed with
    | false =>
      simp only [Bool.false_and, Bool.false_eq_true, if_false]
      have hct : ∀ m : Int, 0 ≤ m → m < (2 ^ t.bits : Nat) → t.toCType m = m := by
        intro m h0 h1
        simp only [IntType.toCType, hs, Bool.false_eq_true, if_false]
        exact Int.emod_eq_of_lt h0 h1
      constructor
      · rintro ⟨m, hm, rfl⟩
        rw [convertTo_iff] at hm
        obtain ⟨hm, hr⟩ := hm
        simp only [Bool.false_eq_true, if_false, false_and, exists_const, false_or] at hm hr
        have hr' : m < (2 ^ t.bits : Nat) := hr
        rcases hm with ⟨k, hk, rfl⟩ | ⟨u, k, rfl, hk, rfl⟩ | ⟨u, k, rfl, hk, rfl⟩ <;>
          rw [hct _ (by omega) hr']
        · exact ⟨.dec hk, hr'⟩
        · exact ⟨.plus hk, hr'⟩
        · exact ⟨.hexUnsigned rfl hk, hr'⟩
      · rintro ⟨hd, hr⟩
        refine ⟨n, ?_, ?_⟩
        · rw [convertTo_iff]
          refine ⟨?_, hr⟩
          cases hd with
          | dec h => exact .inl ⟨_, h, rfl⟩
          | plus h => exact .inr (.inl ⟨_, _, rfl, h, rfl⟩)
          | minus e _ => simp at e
          | hexUnsigned _ h => exact .inr (.inr (.inr ⟨_, _, rfl, h, rfl⟩))
          | hexPositive e _ _ => simp at e
          | hexNegative e _ _ _ => simp at e
        · apply hct _ _ hr
          cases hd with
          | dec h => omega
          | plus h => omega
          | minus e _ => simp at e
          | hexUnsigned _ h => omega
          | hexPositive e _ _ => simp at e
          | hexNegative e _ _ _ => simp at e
    | true =>
      simp only [Bool.true_and, if_true]
      have hct : ∀ m : Int, -(2 ^ (t.bits - 1) : Nat) ≤ m → m < (2 ^ (t.bits - 1) : Nat) →
          t.toCType m = m := by
        intro m h0 h1
        simp only [IntType.toCType, hs, if_true]
        rw [Int.bmod_def]
        rcases hsz with ⟨e, e'⟩ | ⟨e, e'⟩ | ⟨e, e'⟩ <;> rw [e'] at h0 h1 <;> rw [e] <;>
          simp at h0 h1 ⊢ <;> omega
      have hctu : ∀ m : Nat, (2 ^ (t.bits - 1) : Nat) ≤ m → m < (2 ^ t.bits : Nat) →
          t.toCType (m : Int) = (m : Int) - (2 ^ t.bits : Nat) := by
        intro m h0 h1
        simp only [IntType.toCType, hs, if_true]
        rw [Int.bmod_def]
        rcases hsz with ⟨e, e'⟩ | ⟨e, e'⟩ | ⟨e, e'⟩ <;> rw [e'] at h0 h1 ⊢ <;> rw [e] <;>
          simp at h0 h1 ⊢ <;> omega
      by_cases hx : isHexadecimal text = true
      · rw [hx]
        simp only [if_true]
        constructor
        · rintro ⟨m, hm, rfl⟩
          rw [convertTo_iff] at hm
          obtain ⟨hm, hr⟩ := hm
          simp only [Bool.false_eq_true, if_false, false_and, exists_const, false_or] at hm hr
          have hr' : m < (2 ^ t.bits : Nat) := hr
          rcases hm with ⟨k, hk, rfl⟩ | ⟨u, k, rfl, hk, rfl⟩ | ⟨u, k, rfl, hk, rfl⟩
          · obtain ⟨u, rfl⟩ := hk.notHex hx
            exact absurd hk Numeral.no0X
          · simp [isHexadecimal] at hx
          · by_cases hlt : k < 2 ^ (t.bits - 1)
            · rw [hct _ (by omega) (by omega)]
              exact ⟨.hexPositive rfl hk hlt, by omega, by omega⟩
            · have hr'' : k < 2 ^ t.bits := by omega
              rw [hctu k (by omega) hr'']
              refine ⟨.hexNegative rfl hk (by omega) hr'', ?_, ?_⟩ <;>
                rcases hsz with ⟨_, e'⟩ | ⟨_, e'⟩ | ⟨_, e'⟩ <;> rw [e'] at hr'' hlt ⊢ <;>
                simp at hr'' hlt ⊢ <;> omega
        · rintro ⟨hd, hr⟩
          cases hd with
          | dec h =>
            obtain ⟨u, rfl⟩ := h.notHex hx
            exact absurd h Numeral.no0X
          | plus h => simp [isHexadecimal] at hx
          | minus _ h => simp [isHexadecimal] at hx
          | hexUnsigned e _ => simp at e
          | @hexPositive u k _ h hlt =>
            refine ⟨(k : Int), ?_, hct _ (by omega) (by omega)⟩
            rw [convertTo_iff]
            refine ⟨.inr (.inr (.inr ⟨_, _, rfl, h, rfl⟩)), ?_⟩
            simp only [Bool.false_eq_true, if_false]
            have : k < 2 ^ t.bits := by
              rcases hsz with ⟨_, e'⟩ | ⟨_, e'⟩ | ⟨_, e'⟩ <;> rw [e'] at hlt ⊢ <;> simp at hlt ⊢ <;> omega
            have : (k : Int) < ((2 ^ t.bits : Nat) : Int) := by omega
            exact this
          | @hexNegative u k _ h hge hlt =>
            refine ⟨(k : Int), ?_, hctu _ hge hlt⟩
            rw [convertTo_iff]
            refine ⟨.inr (.inr (.inr ⟨_, _, rfl, h, rfl⟩)), ?_⟩
            simp only [Bool.false_eq_true, if_false]
            have : (k : Int) < ((2 ^ t.bits : Nat) : Int) := by omega
            exact this
      · rw [if_neg hx]
        constructor
        · rintro ⟨m, hm, rfl⟩
          rw [convertTo_iff] at hm
          obtain ⟨hm, hr⟩ := hm
          simp only [if_true] at hr
          have hr1 : -(2 ^ (t.bits - 1) : Nat) ≤ m := hr.1
          have hr2 : m < (2 ^ (t.bits - 1) : Nat) := hr.2
          rw [hct _ hr1 hr2]
          refine ⟨?_, hr1, hr2⟩
          rcases hm with ⟨k, hk, rfl⟩ | ⟨u, k, rfl, hk, rfl⟩ | ⟨u, k, _, rfl, hk, rfl⟩ | ⟨u, k, rfl, hk, rfl⟩
          · exact .dec hk
          · exact .plus hk
          · exact .minus rfl hk
          · exact absurd (isHexadecimal_0x u) hx
        · rintro ⟨hd, hr⟩
          refine ⟨n, ?_, hct _ hr.1 hr.2⟩
          rw [convertTo_iff]
          refine ⟨?_, hr⟩
          cases hd with
          | dec h => exact .inl ⟨_, h, rfl⟩
          | plus h => exact .inr (.inl ⟨_, _, rfl, h, rfl⟩)
          | minus _ h => exact .inr (.inr (.inl ⟨_, _, rfl, rfl, h, rfl⟩))
          | hexUnsigned e _ => simp at e
          | hexPositive _ h _ => exact absurd (isHexadecimal_0x _) hx
          | hexNegative _ h _ _ => exact absurd (isHexadecimal_0x _) hx
  rw [hF]
  constructor
  · intro h
    cases hi : inter with
    | none => rw [hi] at h; simp at h
    | some m =>
      rw [hi] at h
      simp only at h
      split at h
      · rename_i hr
        simp only [Option.some.injEq] at h
        have hk := (key (t.toCType m)).1 ⟨m, hi, rfl⟩
        have hr' := (hrange _).1 hr
        exact ⟨_, hk.1, hr'.1, hr'.2, h.symm⟩
      · simp at h
  · rintro ⟨n, hd, h1, h2, rfl⟩
    have hb : (if t.signed then -(2 ^ (t.bits - 1) : Nat) ≤ n ∧ n < (2 ^ (t.bits - 1) : Nat)
          else n < (2 ^ t.bits : Nat)) := by
      split
      · rename_i hs
        rw [if_pos hs] at hlow hhigh
        exact ⟨by omega, by omega⟩
      · rename_i hs
        rw [if_neg hs] at hlow hhigh
        omega
    obtain ⟨m, hm, hc⟩ := (key n).2 ⟨hd, hb⟩
    rw [hm]
    simp only
    rw [hc, if_pos ((hrange n).2 ⟨h1, h2⟩)]

/-- Bounds of the values of a well formed type. -/
theorem IntType.WF.bounds {t : IntType} (wf : t.WF) {n : Int} (h1 : t.min ≤ n) (h2 : n ≤ t.max) :
    (if t.signed then -(2 ^ (t.bits - 1) : Nat) ≤ n ∧ n < (2 ^ (t.bits - 1) : Nat)
      else 0 ≤ n ∧ n < (2 ^ t.bits : Nat)) := by
  have hlow := wf.low
  have hhigh := wf.high
  split
  · rename_i hs; rw [if_pos hs] at hlow hhigh; exact ⟨by omega, by omega⟩
  · rename_i hs; rw [if_neg hs] at hlow hhigh; exact ⟨by omega, by omega⟩

/-- Printing raw data denotes the value of the bytes. -/
theorem IntType.toText_denotes (t : IntType) (wf : t.WF) (ctx : Ctx) (bs : List Byte)
    (hl : bs.length = t.size) :
    Denotes t.signed t.bits (t.toText ctx (BitVec.ofNat 32 (decLE bs))) (memValue t.signed bs) := by
  have hsz := t.size_bits wf
  have hlt := decLE_lt bs
  rw [hl, pow256] at hlt
  have hn : (BitVec.ofNat 32 (decLE bs)).toNat = decLE bs := by
    rw [BitVec.toNat_ofNat]
    apply Nat.mod_eq_of_lt
    rcases hsz with ⟨e, _⟩ | ⟨e, _⟩ | ⟨e, _⟩ <;> rw [e] at hlt <;> simp at hlt ⊢ <;> omega
  unfold IntType.toText memValue
  rw [hl]
  split
  · obtain ⟨u, hu, hnum⟩ := numeral_hexText (t.size * 2) (decLE bs)
    rw [hn, hu]
    cases hs : t.signed with
    | false => simpa using Denotes.hexUnsigned rfl hnum
    | true =>
      simp only [if_true]
      by_cases h : decLE bs < 2 ^ (t.bits - 1)
      · rw [show Int.bmod (decLE bs) (2 ^ (8 * t.size)) = decLE bs by
          rw [Int.bmod_def]
          rcases hsz with ⟨e, e'⟩ | ⟨e, e'⟩ | ⟨e, e'⟩ <;> rw [e'] at h <;> rw [e] at hlt ⊢ <;>
            simp at h hlt ⊢ <;> omega]
        exact .hexPositive rfl hnum h
      · rw [show Int.bmod (decLE bs) (2 ^ (8 * t.size)) = (decLE bs : Int) - (2 ^ t.bits : Nat) by
          rw [Int.bmod_def]
          rcases hsz with ⟨e, e'⟩ | ⟨e, e'⟩ | ⟨e, e'⟩ <;> rw [e'] at h ⊢ <;> rw [e] at hlt ⊢ <;>
            simp at h hlt ⊢ <;> omega]
        exact .hexNegative rfl hnum (by omega) hlt
  · split
    · rename_i hs
      rw [signExtend_toInt wf.size, hn]
      exact denotes_intText _ _ _ (.inl hs)
    · rename_i hs
      rw [hn]
      exact .dec (numeral_natText _)

theorem IntType.toText_decimal (t : IntType) (wf : t.WF) (ctx : Ctx) (bs : List Byte)
    (hl : bs.length = t.size) (hc : ¬ (ctx.raw = true ∧ ctx.hex = true)) :
    t.toText ctx (BitVec.ofNat 32 (decLE bs)) = intText (memValue t.signed bs) := by
  have hsz := t.size_bits wf
  have hlt := decLE_lt bs
  rw [hl, pow256] at hlt
  have hn : (BitVec.ofNat 32 (decLE bs)).toNat = decLE bs := by
    rw [BitVec.toNat_ofNat]
    apply Nat.mod_eq_of_lt
    rcases hsz with ⟨e, _⟩ | ⟨e, _⟩ | ⟨e, _⟩ <;> rw [e] at hlt <;> simp at hlt ⊢ <;> omega
  unfold IntType.toText memValue
  rw [if_neg (by simpa using hc), hl]
  split
  · rw [signExtend_toInt wf.size, hn]
  · rw [hn]
    simp [intText]

/-- Bytes written for a value. -/
theorem memValue_encLE (t : IntType) (wf : t.WF) {n : Int} (h1 : t.min ≤ n) (h2 : n ≤ t.max) :
    memValue t.signed (encLE t.size (BitVec.ofInt 32 n).toNat) = n := by
  have hsz := t.size_bits wf
  have hb := wf.bounds h1 h2
  unfold memValue
  rw [encLE_length, decLE_encLE, pow256]
  cases hs : t.signed with
  | true =>
    rw [hs] at hb
    simp only [if_true] at hb ⊢
    rw [Int.bmod_def]
    rcases hsz with ⟨e, e'⟩ | ⟨e, e'⟩ | ⟨e, e'⟩ <;> rw [e'] at hb <;> rw [e] <;>
      simp [BitVec.toNat_ofInt] at hb ⊢ <;> omega
  | false =>
    rw [hs] at hb
    simp only [Bool.false_eq_true, if_false] at hb ⊢
    rcases hsz with ⟨e, e'⟩ | ⟨e, e'⟩ | ⟨e, e'⟩ <;> rw [e'] at hb <;> rw [e] <;>
      simp [BitVec.toNat_ofInt] at hb ⊢ <;> omega

/-- Conversely the bytes are those of the value they hold. -/
theorem encLE_memValue (t : IntType) (wf : t.WF) (bs : List Byte) (hl : bs.length = t.size) :
    encLE t.size (BitVec.ofInt 32 (memValue t.signed bs)).toNat = bs := by
  have hsz := t.size_bits wf
  have hlt := decLE_lt bs
  rw [hl, pow256] at hlt
  have e := encLE_decLE bs
  rw [hl] at e
  refine Eq.trans ?_ e
  rw [← encLE_mod, pow256]
  congr 1
  unfold memValue
  rw [hl]
  cases hs : t.signed with
  | true =>
    simp only [if_true]
    rw [Int.bmod_def]
    rcases hsz with ⟨e, e'⟩ | ⟨e, e'⟩ | ⟨e, e'⟩ <;> rw [e] at hlt ⊢ <;>
      simp [BitVec.toNat_ofInt] at hlt ⊢ <;> omega
  | false =>
    simp only [Bool.false_eq_true, if_false]
    rcases hsz with ⟨e, e'⟩ | ⟨e, e'⟩ | ⟨e, e'⟩ <;> rw [e] at hlt ⊢ <;>
      simp [BitVec.toNat_ofInt] at hlt ⊢ <;> omega

end PF
