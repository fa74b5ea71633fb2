import Verif.Lemmas.Enum

/-!
# Enum parameters (C35) and boolean parameters (C36)
-/

namespace PF

/-- Sample enum of one byte. -/
def sampleEnum : EnumType :=
  { size := 1, pairs := [(s "Low", BitVec.ofInt 32 (-2)), (s "Mid", 0#32), (s "High", 100#32)] }

/-- **C35** (accepted values).  Setting an enum parameter from a text succeeds exactly when the
number selected by the text (wrapped to the size in raw space) is declared and fits the size;
otherwise it is refused. -/
theorem C35_accepted_iff_declared (rd : Reader) (t : EnumType)
    (hsz : t.size = 1 ∨ t.size = 2 ∨ t.size = 4) (ctx : Ctx) (b : Board) (off : Nat)
    (room : off + t.size ≤ b.length) (text : Str) (P : Prop)
    (hP : P ↔ ∃ n m, t.Selects text n ∧ m = (if ctx.raw then Int.bmod n (2 ^ (8 * t.size)) else n) ∧
      t.Declared m ∧ FitsSigned t.size m) :
    (P → ∃ b', setScalarText rd (.enum t) ctx b off text = .ok b') ∧
    (¬ P → setScalarText rd (.enum t) ctx b off text = .err) := by
  unfold setScalarText
  simp only [ScalarType.fromText, ScalarType.size]
  cases h : t.fromText ctx text with
  | none =>
    have : ¬ P := by
      rw [hP]
      rintro ⟨n, m, h1, h2, h3, h4⟩
      obtain ⟨p, hp, hpe⟩ := h3
      have := (t.fromText_iff hsz ctx text p.2).2
        ⟨n, h1, by rw [hpe]; exact h2, ⟨p, hp, rfl⟩, by rw [hpe]; exact h4⟩
      rw [h] at this; simp at this
    exact ⟨fun hp => absurd hp this, fun _ => rfl⟩
  | some v =>
    obtain ⟨n, h1, h2, h3, h4⟩ := (t.fromText_iff hsz ctx text v).1 h
    have hp : P := hP.2 ⟨n, v.toInt, h1, h2, h3, h4⟩
    obtain ⟨b', hb⟩ := writeScalar_ok (size := t.size) (b := b) (off := off) v room
    exact ⟨fun _ => ⟨b', hb⟩, fun hno => absurd hp hno⟩

example : setScalarText .none (.enum sampleEnum) ⟨false, false⟩ [9#8, 9#8] 1 (s "Low")
    = .ok [9#8, 0xFE#8] := by decide
example : setScalarText .none (.enum sampleEnum) ⟨true, false⟩ [9#8, 9#8] 1 (s "0xFE")
    = .ok [9#8, 0xFE#8] := by decide
example : setScalarText .none (.enum sampleEnum) ⟨false, false⟩ [9#8, 9#8] 1 (s "99")
    = .err := by decide

/-- **C35** (reading back).  After a successful set, the bytes hold the selected number, nothing else
changed, the typed read gives that number and the real space read gives the first literal declared
for it. -/
theorem C35_set_then_get (rd : Reader) (t : EnumType)
    (hsz : t.size = 1 ∨ t.size = 2 ∨ t.size = 4) (ctx : Ctx) (b b' : Board) (off : Nat) (text : Str)
    (h : setScalarText rd (.enum t) ctx b off text = .ok b') :
    ∃ n m, t.Selects text n ∧ m = (if ctx.raw then Int.bmod n (2 ^ (8 * t.size)) else n) ∧
      SameOutside b b' off t.size ∧
      (∃ bs, b'.read off t.size = some bs ∧ memValue true bs = m) ∧
      (∃ v, readScalar t.size b' off = .ok v ∧ (t.toInt v).toInt = m) ∧
      ∀ hex, ∃ before l v after, t.pairs = before ++ (l, v) :: after ∧ v.toInt = m ∧
        (∀ p ∈ before, p.2 ≠ v) ∧ getScalarText (.enum t) ⟨false, hex⟩ b' off = .ok l := by
  unfold setScalarText at h
  simp only [ScalarType.fromText, ScalarType.size] at h
  split at h
  · simp at h
  · rename_i v hv
    obtain ⟨n, h1, h2, h3, h4⟩ := (t.fromText_iff hsz ctx text v).1 hv
    have hread : b'.read off t.size = some (encLE t.size v.toNat) := by
      unfold writeScalar at h
      split at h
      · rename_i b'' hw
        simp only [Out.ok.injEq] at h; subst h
        have := Board.read_write_same hw
        rwa [encLE_length] at this
      · simp at h
    have hrs := readScalar_writeScalar h
    refine ⟨n, v.toInt, h1, h2, writeScalar_frame h, ⟨_, hread, ?_⟩, ⟨_, hrs, ?_⟩, ?_⟩
    · unfold memValue
      rw [if_pos rfl, encLE_length, decLE_encLE, pow256, ← bmod_of_fits hsz h4, ← signExtend_toInt' hsz,
        ← signExtend_low hsz, signExtend_toInt hsz]
      rw [BitVec.toNat_ofNat]
      have := v.isLt
      rcases hsz with e | e | e <;> rw [e] <;> simp [Int.bmod_def] <;> omega
    · unfold EnumType.toInt
      rw [signExtend_low hsz, signExtend_of_fits hsz h4]
    · intro hex
      obtain ⟨p, hp, hpv⟩ := h3
      have hlit : ∃ q, t.pairs.find? (fun p => p.2 == v) = some q := by
        rw [← Option.isSome_iff_exists, List.find?_isSome]
        exact ⟨p, hp, by simpa using BitVec.eq_of_toInt_eq hpv⟩
      obtain ⟨⟨l, w⟩, hq⟩ := hlit
      have hq' := (find_first _ _ _).1 hq
      obtain ⟨he, x, y, hxy, hz⟩ := hq'
      simp only [beq_iff_eq] at he
      subst he
      refine ⟨x, l, w, y, hxy, rfl, by simpa using hz, ?_⟩
      unfold getScalarText
      simp only [ScalarType.size]
      rw [hrs]
      simp only [Out.bind, ScalarType.toText, EnumType.toText, Bool.false_eq_true, if_false,
        EnumType.literal]
      rw [signExtend_low hsz, signExtend_of_fits hsz h4, hq]
      rfl

example : getScalarText (.enum sampleEnum) ⟨false, false⟩ [9#8, 0xFE#8] 1 = .ok (s "Low") := by decide

/-- **C35** (raw space round trip), 8 and 16 bits: in raw space, decimal or hexadecimal, the text read
for a declared value can be set again and leaves the memory as it was. -/
theorem C35_raw_round_trip_partial (rd : Reader) (t : EnumType)
    (hsz : t.size = 1 ∨ t.size = 2) (hex hex' : Bool) (b : Board) (off : Nat) (bs : List Byte)
    (hr : b.read off t.size = some bs) (hd : t.Declared (memValue true bs)) :
    ∃ out, getScalarText (.enum t) ⟨true, hex⟩ b off = .ok out ∧
      setScalarText rd (.enum t) ⟨true, hex'⟩ b off out = .ok b := by
  have hsz' : t.size = 1 ∨ t.size = 2 ∨ t.size = 4 := by omega
  have hl := (Board.read_length hr).1
  have hlt := decLE_lt bs
  rw [hl, pow256] at hlt
  have h16 : decLE bs < 65536 := by
    rcases hsz with e | e <;> rw [e] at hlt <;> simp at hlt <;> omega
  have hn : (BitVec.ofNat 32 (decLE bs)).toNat = decLE bs := by
    rw [BitVec.toNat_ofNat]; apply Nat.mod_eq_of_lt; omega
  -- the text read stands for the unsigned content
  have htext : ∃ out, t.toText ⟨true, hex⟩ (BitVec.ofNat 32 (decLE bs)) = .ok out ∧
      PlainInt out (decLE bs) := by
    unfold EnumType.toText
    simp only [if_true]
    cases hex with
    | true =>
      simp only [if_true]
      rw [if_neg (by omega)]
      have hmask : (BitVec.ofNat 32 (decLE bs) &&& (1#32 <<< (t.size * 8) - 1#32)).toNat = decLE bs := by
        rw [BitVec.toNat_and, hn]
        have hm : (1#32 <<< (t.size * 8) - 1#32).toNat = 2 ^ (8 * t.size) - 1 := by
          rcases hsz with e | e <;> rw [e] <;> decide
        rw [hm, Nat.and_two_pow_sub_one_eq_mod, Nat.mod_eq_of_lt hlt]
      rw [hmask]
      obtain ⟨u, hu, hnum⟩ := numeral_hexText (t.size * 2) (decLE bs)
      exact ⟨_, rfl, by rw [hu]; exact .hex hnum⟩
    | false =>
      simp only [Bool.false_eq_true, if_false]
      exact ⟨_, rfl, by rw [hn]; exact .dec (numeral_natText _)⟩
  obtain ⟨out, ho, hp⟩ := htext
  refine ⟨out, by simp [getScalarText, readScalar, ScalarType.size, hr, Out.bind, ScalarType.toText, ho], ?_⟩
  have hmv : memValue true bs = Int.bmod (decLE bs) (2 ^ (8 * t.size)) := by
    unfold memValue; rw [if_pos rfl, hl]
  have hfit : FitsSigned t.size (memValue true bs) := by
    rw [hmv]
    unfold FitsSigned
    rcases hsz with e | e <;> rw [e] at hlt ⊢ <;> simp [Int.bmod_def] at hlt ⊢ <;> omega
  obtain ⟨p, hpm, hpe⟩ := hd
  have hf : t.fromText ⟨true, hex'⟩ out = some p.2 := by
    rw [t.fromText_iff hsz']
    refine ⟨decLE bs, .inl ⟨hp, ?_⟩, ?_, ⟨p, hpm, rfl⟩, by rw [hpe]; exact hfit⟩
    · unfold FitsSigned; simp; omega
    · rw [if_pos rfl, hpe, hmv]
  unfold setScalarText
  simp only [ScalarType.fromText, ScalarType.size]
  rw [hf]
  simp only
  unfold writeScalar
  have henc : encLE t.size p.2.toNat = bs := by
    exact encLE_of_toInt hsz' hl (by rw [hpe, hmv])
  rw [henc, Board.write_read_same hr]

example : sampleEnum.Declared (memValue true [0xFE#8]) := ⟨_, List.mem_cons_self, by decide⟩

/-- **C35** (real space round trip): when literals and numbers are declared once, and literals do not
look like numbers, the literal read for a declared value can be set again and leaves the memory as it
was. -/
theorem C35_real_round_trip (rd : Reader) (t : EnumType)
    (hsz : t.size = 1 ∨ t.size = 2 ∨ t.size = 4) (hnames : (t.pairs.map (·.1)).Nodup)
    (hplain : ∀ p ∈ t.pairs, ¬ ∃ n, PlainInt p.1 n) (hex hex' : Bool)
    (b : Board) (off : Nat) (bs : List Byte) (hr : b.read off t.size = some bs)
    (hd : t.Declared (memValue true bs)) :
    ∃ out, getScalarText (.enum t) ⟨false, hex⟩ b off = .ok out ∧
      (∃ v, (out, v) ∈ t.pairs ∧ v.toInt = memValue true bs) ∧
      setScalarText rd (.enum t) ⟨false, hex'⟩ b off out = .ok b := by
  have hl := (Board.read_length hr).1
  have hlt := decLE_lt bs
  rw [hl, pow256] at hlt
  have h32 : decLE bs < 4294967296 := by
    rcases hsz with e | e | e <;> rw [e] at hlt <;> simp at hlt <;> omega
  have hn : (BitVec.ofNat 32 (decLE bs)).toNat = decLE bs := by
    rw [BitVec.toNat_ofNat]; apply Nat.mod_eq_of_lt; omega
  have hmv : memValue true bs = Int.bmod (decLE bs) (2 ^ (8 * t.size)) := by
    unfold memValue; rw [if_pos rfl, hl]
  have hse : (signExtend t.size (BitVec.ofNat 32 (decLE bs))).toInt = memValue true bs := by
    rw [signExtend_toInt hsz, hn, hmv]
  have hfit : FitsSigned t.size (memValue true bs) := by
    rw [hmv]
    unfold FitsSigned
    rcases hsz with e | e | e <;> rw [e] at hlt ⊢ <;> simp [Int.bmod_def] at hlt ⊢ <;> omega
  obtain ⟨p, hpm, hpe⟩ := hd
  have hpv : p.2 = signExtend t.size (BitVec.ofNat 32 (decLE bs)) :=
    BitVec.eq_of_toInt_eq (by rw [hpe, hse])
  have hlit : ∃ q, t.pairs.find? (fun q => q.2 == signExtend t.size (BitVec.ofNat 32 (decLE bs))) = some q := by
    rw [← Option.isSome_iff_exists, List.find?_isSome]
    exact ⟨p, hpm, by simpa using hpv⟩
  obtain ⟨⟨l, w⟩, hq⟩ := hlit
  have hqm := List.mem_of_find?_eq_some hq
  have hw : w = signExtend t.size (BitVec.ofNat 32 (decLE bs)) := by
    have := List.find?_some hq
    simpa using this
  refine ⟨l, ?_, ⟨w, hqm, by rw [hw, hse]⟩, ?_⟩
  · simp only [getScalarText, readScalar, ScalarType.size, hr, Out.bind, ScalarType.toText,
      EnumType.toText, Bool.false_eq_true, if_false, EnumType.literal, hq]
    rfl
  · have hnum : ∃ before after, t.pairs = before ++ (l, w) :: after ∧ ∀ q ∈ before, q.1 ≠ l := by
      obtain ⟨x, y, hxy⟩ := List.append_of_mem hqm
      refine ⟨x, y, hxy, ?_⟩
      intro q hq' e
      rw [hxy, List.map_append, List.map_cons, List.nodup_append] at hnames
      exact hnames.2.2 q.1 (List.mem_map_of_mem hq') l (by simp) e
    obtain ⟨x, y, hxy, hx⟩ := hnum
    have hf : t.fromText ⟨false, hex'⟩ l = some w := by
      rw [t.fromText_iff hsz]
      refine ⟨w.toInt, .inr ⟨?_, x, w, y, hxy, hx, rfl⟩, by simp, ⟨_, hqm, rfl⟩, by rw [hw, hse]; exact hfit⟩
      rintro ⟨m, hm, _⟩
      exact hplain _ hqm ⟨m, hm⟩
    unfold setScalarText
    simp only [ScalarType.fromText, ScalarType.size]
    rw [hf]
    simp only
    unfold writeScalar
    have henc : encLE t.size w.toNat = bs := by
      exact encLE_of_toInt hsz hl (by rw [hw, hse, hmv])
    rw [henc, Board.write_read_same hr]

/-- **C35** fails for 32-bit enums printed in raw hexadecimal: the mask is computed by an undefined
shift (`1 << 32`). -/
theorem C35_hex_read_of_32_bits_undefined (t : EnumType) (h : t.size = 4) (v : BitVec 32) :
    t.toText ⟨true, true⟩ v = .abort := by
  simp [EnumType.toText, h]

/-- **C35** fails for negative values of 32-bit enums in raw decimal: the printed text is refused. -/
theorem C35_negative_32_bits_not_read_back :
    ∃ (t : EnumType) (b : Board) (out : Str), t.size = 4 ∧ t.Declared (-1) ∧
      b = [0xFF#8, 0xFF#8, 0xFF#8, 0xFF#8] ∧ getScalarText (.enum t) ⟨true, false⟩ b 0 = .ok out ∧
      setScalarText .none (.enum t) ⟨true, false⟩ b 0 out = .err :=
  ⟨{ size := 4, pairs := [(s "Minus", 0xFFFFFFFF#32)] }, [0xFF#8, 0xFF#8, 0xFF#8, 0xFF#8],
    s "4294967295", rfl, ⟨_, List.mem_cons_self, by decide⟩, rfl, by decide +kernel, by decide +kernel⟩

/-- **C35**: a literal that looks like a number is read as the number, so it cannot be set by name. -/
theorem C35_numeric_literal_shadowed :
    ∃ t : EnumType, (s "5", 7#32) ∈ t.pairs ∧ FitsSigned t.size 7 ∧
      setScalarText .none (.enum t) ⟨false, false⟩ [0#8] 0 (s "5") = .err :=
  ⟨{ size := 1, pairs := [(s "5", 7#32)] }, List.mem_cons_self, ⟨by decide, by decide⟩, by decide⟩

/-! ## Booleans -/

/-- **C36**: a boolean parameter accepts exactly `1`, `0x1`, `0`, `0x0`; then the typed reads give the
value, in any format the text read gives `1`/`0` (`0x` prefixed in raw hexadecimal), and nothing else
is written. -/
theorem C36_boolean (rd : Reader) (ctx : Ctx) (b : Board) (off : Nat)
    (room : off + 1 ≤ b.length) (text : Str) :
    ((text = s "1" ∨ text = s "0x1" ∨ text = s "0" ∨ text = s "0x0") →
      ∃ b' v, setScalarText rd .bool ctx b off text = .ok b' ∧ SameOutside b b' off 1 ∧
        readScalar 1 b' off = .ok v ∧
        boolToBool v = decide (text = s "1" ∨ text = s "0x1") ∧
        boolToUInt v = (if text = s "1" ∨ text = s "0x1" then 1#32 else 0#32) ∧
        ∀ ctx' : Ctx, getScalarText .bool ctx' b' off = .ok
          ((if ctx'.raw ∧ ctx'.hex then s "0x" else []) ++
            (if text = s "1" ∨ text = s "0x1" then s "1" else s "0"))) ∧
    (¬ (text = s "1" ∨ text = s "0x1" ∨ text = s "0" ∨ text = s "0x0") →
      setScalarText rd .bool ctx b off text = .err) := by
  constructor
  · intro h
    by_cases h1 : text = s "1" ∨ text = s "0x1"
    · obtain ⟨b', hb⟩ := writeScalar_ok (size := 1) 1#32 room
      have hr := readScalar_writeScalar hb
      refine ⟨b', _, by simp [setScalarText, ScalarType.fromText, boolFromText, h1, ScalarType.size, hb],
        writeScalar_frame hb, hr, by simp [h1, boolToBool], by simp [h1, boolToUInt], ?_⟩
      intro ctx'
      unfold getScalarText
      simp only [ScalarType.size]
      rw [hr]
      rcases ctx' with ⟨_ | _, _ | _⟩ <;>
        simp [Out.bind, ScalarType.toText, boolToText, h1]
    · have h0 : text = s "0" ∨ text = s "0x0" := by
        rcases h with h | h | h | h
        · exact absurd (.inl h) h1
        · exact absurd (.inr h) h1
        · exact .inl h
        · exact .inr h
      obtain ⟨b', hb⟩ := writeScalar_ok (size := 1) 0#32 room
      have hr := readScalar_writeScalar hb
      refine ⟨b', _, by simp [setScalarText, ScalarType.fromText, boolFromText, h1, h0, ScalarType.size, hb],
        writeScalar_frame hb, hr, by simp [h1, boolToBool], by simp [h1, boolToUInt], ?_⟩
      intro ctx'
      unfold getScalarText
      simp only [ScalarType.size]
      rw [hr]
      rcases ctx' with ⟨_ | _, _ | _⟩ <;>
        simp [Out.bind, ScalarType.toText, boolToText, h1]
  · intro h
    simp only [not_or] at h
    simp [setScalarText, ScalarType.fromText, boolFromText, h]

/-- **C36** (typed access): `setAsBoolean` and `setAsInteger` (0 or 1, the rest refused) read back. -/
theorem C36_boolean_typed (b : Board) (off : Nat) (room : off + 1 ≤ b.length) :
    (∀ v, ∃ b', writeScalar 1 b off (boolFromBool v) = .ok b' ∧ SameOutside b b' off 1 ∧
      (readScalar 1 b' off).bind (fun r => .ok (boolToBool r)) = .ok v) ∧
    (∀ u : BitVec 32, u.toNat ≤ 1 → ∃ b', boolFromUInt u = some u ∧ writeScalar 1 b off u = .ok b' ∧
      SameOutside b b' off 1 ∧ (readScalar 1 b' off).bind (fun r => .ok (boolToUInt r)) = .ok u) ∧
    (∀ u : BitVec 32, 1 < u.toNat → boolFromUInt u = none) := by
  refine ⟨?_, ?_, ?_⟩
  · intro v
    obtain ⟨b', hb⟩ := writeScalar_ok (size := 1) (boolFromBool v) room
    refine ⟨b', hb, writeScalar_frame hb, ?_⟩
    rw [readScalar_writeScalar hb]
    cases v <;> simp [Out.bind, boolFromBool, boolToBool]
  · intro u hu
    obtain ⟨b', hb⟩ := writeScalar_ok (size := 1) u room
    refine ⟨b', by simp [boolFromUInt]; omega, hb, writeScalar_frame hb, ?_⟩
    rw [readScalar_writeScalar hb]
    have : u = 0#32 ∨ u = 1#32 := by
      have : u.toNat = 0 ∨ u.toNat = 1 := by omega
      rcases this with h | h
      · left; exact BitVec.eq_of_toNat_eq h
      · right; exact BitVec.eq_of_toNat_eq h
    rcases this with rfl | rfl <;> simp [Out.bind, boolToUInt]
  · intro u hu
    simp [boolFromUInt]; omega

example : setScalarText .none .bool ⟨true, true⟩ [7#8, 7#8] 1 (s "0x1") = .ok [7#8, 1#8] := by
  decide

end PF
