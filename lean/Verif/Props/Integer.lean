import Verif.Lemmas.Integer

/-!
# Integer parameters (C33, C34)
-/

namespace PF

/-- An `Int8` parameter limited to [-100, 100]. -/
def sampleInt8 : IntType := { signed := true, size := 1, min := -100, max := 100 }

theorem sampleInt8_wf : sampleInt8.WF :=
  ⟨by decide, by decide, by decide, by decide⟩

/-- **C33** (which texts are accepted).  Setting an integer parameter from a text succeeds exactly
when the text denotes an integer within the declared range; otherwise it is refused. -/
theorem C33_accepted_iff_denotes (rd : Reader) (t : IntType) (wf : t.WF) (ctx : Ctx)
    (b : Board) (off : Nat) (room : off + t.size ≤ b.length) (text : Str) :
    ((∃ b', setScalarText rd (.int t) ctx b off text = .ok b') ↔
      ∃ n, Denotes t.signed t.bits text n ∧ t.min ≤ n ∧ n ≤ t.max) ∧
    ((¬ ∃ n, Denotes t.signed t.bits text n ∧ t.min ≤ n ∧ n ≤ t.max) →
      setScalarText rd (.int t) ctx b off text = .err) := by
  unfold setScalarText
  simp only [ScalarType.fromText]
  cases h : t.fromText text with
  | none =>
    have : ¬ ∃ n, Denotes t.signed t.bits text n ∧ t.min ≤ n ∧ n ≤ t.max := by
      rintro ⟨n, h1, h2, h3⟩
      have := (t.fromText_iff wf text (BitVec.ofInt 32 n)).2 ⟨n, h1, h2, h3, rfl⟩
      rw [h] at this; simp at this
    simp [this]
  | some v =>
    obtain ⟨n, h1, h2, h3, _⟩ := (t.fromText_iff wf text v).1 h
    obtain ⟨b', hb⟩ := writeScalar_ok (size := t.size) (b := b) (off := off) v room
    simp only [ScalarType.size]
    exact ⟨⟨fun _ => ⟨n, h1, h2, h3⟩, fun _ => ⟨b', hb⟩⟩, fun hno => absurd ⟨n, h1, h2, h3⟩ hno⟩

example : Denotes true 8 (s "0xF6") (-10) :=
  .hexNegative (n := 246) rfl (.more (.single (c := 'F') (d := 15) (by simp [IsDigit, digitTable]))
    (c := '6') (d := 6) (by simp [IsDigit, digitTable])) (by decide) (by decide)

/-- **C33** (the value is the one denoted).  After a successful set, the bytes of the parameter hold
the denoted integer and no other byte changed; reading in any format gives a text denoting the same
integer, which is its plain decimal form unless raw hexadecimal output is selected. -/
theorem C33_set_then_get (rd : Reader) (t : IntType) (wf : t.WF) (ctx : Ctx)
    (b b' : Board) (off : Nat) (text : Str) (n : Int) (hd : Denotes t.signed t.bits text n)
    (h : setScalarText rd (.int t) ctx b off text = .ok b') :
    t.min ≤ n ∧ n ≤ t.max ∧ SameOutside b b' off t.size ∧
    (∃ bs, b'.read off t.size = some bs ∧ memValue t.signed bs = n) ∧
    ∀ ctx', ∃ out, getScalarText (.int t) ctx' b' off = .ok out ∧ Denotes t.signed t.bits out n ∧
      (¬ (ctx'.raw = true ∧ ctx'.hex = true) → out = intText n) := by
  unfold setScalarText at h
  simp only [ScalarType.fromText, ScalarType.size] at h
  split at h
  · simp at h
  · rename_i v hv
    obtain ⟨m, h1, h2, h3, hvm⟩ := (t.fromText_iff wf text v).1 hv
    obtain rfl := hd.unique h1
    refine ⟨h2, h3, writeScalar_frame h, ?_⟩
    have hread : b'.read off t.size = some (encLE t.size v.toNat) := by
      unfold writeScalar at h
      split at h
      · rename_i b'' hw
        simp only [Out.ok.injEq] at h; subst h
        have := Board.read_write_same hw
        rwa [encLE_length] at this
      · simp at h
    have hmem : memValue t.signed (encLE t.size v.toNat) = n := by
      rw [hvm]; exact memValue_encLE t wf h2 h3
    refine ⟨⟨_, hread, hmem⟩, ?_⟩
    intro ctx'
    refine ⟨t.toText ctx' (BitVec.ofNat 32 (decLE (encLE t.size v.toNat))), ?_, ?_, ?_⟩
    · simp [getScalarText, readScalar, ScalarType.size, hread, Out.bind, ScalarType.toText]
    · have := t.toText_denotes wf ctx' _ (encLE_length t.size v.toNat)
      rwa [hmem] at this
    · intro hc
      have := t.toText_decimal wf ctx' _ (encLE_length t.size v.toNat) hc
      rwa [hmem] at this

example : ∃ b', setScalarText .none (.int sampleInt8) ⟨true, true⟩ [1#8, 2#8, 3#8] 1 (s "0xF6")
      = .ok b' ∧ b' = [1#8, 246#8, 3#8] ∧
      getScalarText (.int sampleInt8) ⟨false, false⟩ b' 1 = .ok (s "-10") ∧
      getScalarText (.int sampleInt8) ⟨true, true⟩ b' 1 = .ok (s "0xF6") :=
  ⟨_, rfl, by decide, by decide, by decide⟩

/-- **C33** (reading then setting).  Whatever the memory holds, the text read in any format denotes
the integer in memory, and setting that text (in any context) is either refused, because that
integer is out of the declared range, or leaves the memory as it was. -/
theorem C33_get_then_set (rd : Reader) (t : IntType) (wf : t.WF) (ctx ctx' : Ctx)
    (b : Board) (off : Nat) (bs : List Byte) (hr : b.read off t.size = some bs) :
    ∃ out, getScalarText (.int t) ctx b off = .ok out ∧
      Denotes t.signed t.bits out (memValue t.signed bs) ∧
      setScalarText rd (.int t) ctx' b off out =
        if t.min ≤ memValue t.signed bs ∧ memValue t.signed bs ≤ t.max then .ok b else .err := by
  have hl := (Board.read_length hr).1
  refine ⟨t.toText ctx (BitVec.ofNat 32 (decLE bs)), ?_, t.toText_denotes wf ctx bs hl, ?_⟩
  · simp [getScalarText, readScalar, ScalarType.size, hr, Out.bind, ScalarType.toText]
  · have hd := t.toText_denotes wf ctx bs hl
    unfold setScalarText
    simp only [ScalarType.fromText, ScalarType.size]
    by_cases hin : t.min ≤ memValue t.signed bs ∧ memValue t.signed bs ≤ t.max
    · rw [if_pos hin]
      have hf := (t.fromText_iff wf _ (BitVec.ofInt 32 (memValue t.signed bs))).2
        ⟨_, hd, hin.1, hin.2, rfl⟩
      rw [hf]
      simp only
      unfold writeScalar
      rw [encLE_memValue t wf bs hl, Board.write_read_same hr]
    · rw [if_neg hin]
      have : t.fromText (t.toText ctx (BitVec.ofNat 32 (decLE bs))) = none := by
        cases hf : t.fromText (t.toText ctx (BitVec.ofNat 32 (decLE bs))) with
        | none => rfl
        | some v =>
          obtain ⟨m, h1, h2, h3, _⟩ := (t.fromText_iff wf _ v).1 hf
          obtain rfl := hd.unique h1
          exact absurd ⟨h2, h3⟩ hin
      rw [this]

example : Board.read [7#8, 0xF6#8, 0xFF#8] 1 2 = some [0xF6#8, 0xFF#8] := by decide

/-! ## Typed access -/

theorem ofNat_mod_of_lt {size : Nat} {v : BitVec 32} (h : v.toNat < 2 ^ (8 * size)) :
    BitVec.ofNat 32 (v.toNat % 2 ^ (8 * size)) = v := by
  rw [Nat.mod_eq_of_lt h]
  simp

/-- **C34** (unsigned access), for a type whose range holds no negative value: exactly the values of
the range are accepted, the rest is refused, and the value is read back. -/
theorem C34_unsigned_access_partial (t : IntType) (wf : t.WF) (h0 : 0 ≤ t.min) (b : Board) (off : Nat)
    (room : off + t.size ≤ b.length) (u : BitVec 32) :
    if t.min ≤ u.toNat ∧ u.toNat ≤ t.max then
      ∃ b', setUInt t b off u = .ok b' ∧ getUInt t b' off = .ok u ∧ SameOutside b b' off t.size
    else setUInt t b off u = .err := by
  have hsz := t.size_bits wf
  have hb1 := wf.bounds (Int.le_refl t.min) wf.ordered
  have hb2 := wf.bounds wf.ordered (Int.le_refl t.max)
  have hmax : t.max < (2 ^ t.bits : Nat) := by
    cases hs : t.signed with
    | true =>
      rw [hs] at hb2; simp only [if_true] at hb2
      rcases hsz with ⟨_, e⟩ | ⟨_, e⟩ | ⟨_, e⟩ <;> rw [e] at hb2 ⊢ <;> simp at hb2 ⊢ <;> omega
    | false => rw [hs] at hb2; simp only [Bool.false_eq_true, if_false] at hb2; exact hb2.2
  have hmax32 : t.max < 4294967296 := by
    rcases hsz with ⟨_, e⟩ | ⟨_, e⟩ | ⟨_, e⟩ <;> rw [e] at hmax <;> simp at hmax <;> omega
  have e1 : ((BitVec.ofInt 32 t.min).toNat : Int) = t.min := by
    rw [BitVec.toNat_ofInt]; have := wf.ordered; simp; omega
  have e2 : ((BitVec.ofInt 32 t.max).toNat : Int) = t.max := by
    rw [BitVec.toNat_ofInt]; have := wf.ordered; simp; omega
  split
  · rename_i hin
    have hf : t.fromUInt u = some u := by
      unfold IntType.fromUInt
      rw [if_neg]
      simp only [Bool.or_eq_true, decide_eq_true_eq, not_or, Nat.not_lt]
      omega
    obtain ⟨b', hb⟩ := writeScalar_ok (size := t.size) u room
    refine ⟨b', by simp [setUInt, hf, hb], ?_, writeScalar_frame hb⟩
    unfold getUInt
    rw [readScalar_writeScalar hb, ofNat_mod_of_lt]
    · rfl
    · change u.toNat < 2 ^ t.bits; omega
  · rename_i hout
    have hf : t.fromUInt u = none := by
      unfold IntType.fromUInt
      rw [if_pos]
      simp only [Bool.or_eq_true, decide_eq_true_eq]
      omega
    simp [setUInt, hf]

/-- **C34** (signed access), for a type whose range stays below half of the type's range (always the
case of signed types): exactly the values of the range are accepted, the rest is refused, and the
value is read back. -/
theorem C34_signed_access_partial (t : IntType) (wf : t.WF) (hhalf : t.max < (2 ^ (t.bits - 1) : Nat))
    (b : Board) (off : Nat) (room : off + t.size ≤ b.length) (i : BitVec 32) :
    if t.min ≤ i.toInt ∧ i.toInt ≤ t.max then
      ∃ b', setSInt t b off i = .ok b' ∧ getSInt t b' off = .ok i ∧ SameOutside b b' off t.size
    else setSInt t b off i = .err := by
  have hsz := t.size_bits wf
  have hb1 := wf.bounds (Int.le_refl t.min) wf.ordered
  have hord := wf.ordered
  have hmin : -(2 ^ (t.bits - 1) : Nat) ≤ t.min := by
    cases hs : t.signed with
    | true => rw [hs] at hb1; simp only [if_true] at hb1; exact hb1.1
    | false => rw [hs] at hb1; simp only [Bool.false_eq_true, if_false] at hb1; omega
  have hr : -2147483648 ≤ t.min ∧ t.max < 2147483648 := by
    rcases hsz with ⟨_, e⟩ | ⟨_, e⟩ | ⟨_, e⟩ <;> rw [e] at hmin hhalf <;> simp at hmin hhalf <;> omega
  have e1 : (BitVec.ofInt 32 t.min).toInt = t.min := by
    rw [BitVec.toInt_ofInt, Int.bmod_def]; simp; omega
  have e2 : (BitVec.ofInt 32 t.max).toInt = t.max := by
    rw [BitVec.toInt_ofInt, Int.bmod_def]; simp; omega
  split
  · rename_i hin
    have hf : t.fromInt i = some i := by
      unfold IntType.fromInt
      rw [if_neg]
      simp only [Bool.or_eq_true, decide_eq_true_eq, not_or]
      omega
    obtain ⟨b', hb⟩ := writeScalar_ok (size := t.size) i room
    refine ⟨b', by simp [setSInt, hf, hb], ?_, writeScalar_frame hb⟩
    unfold getSInt
    rw [readScalar_writeScalar hb]
    simp only [Out.bind, IntType.toInt, Out.ok.injEq]
    apply BitVec.eq_of_toInt_eq
    rw [signExtend_toInt wf.size]
    rw [BitVec.toNat_ofNat]
    have hl := i.isLt
    have hi := BitVec.toInt_eq_toNat_bmod i
    have hlo : -(2 ^ (t.bits - 1) : Nat) ≤ i.toInt := Int.le_trans hmin hin.1
    have hhi : i.toInt < (2 ^ (t.bits - 1) : Nat) := Int.lt_of_le_of_lt hin.2 hhalf
    rw [Int.bmod_def] at hi ⊢
    generalize i.toInt = x at *
    generalize i.toNat = y at *
    clear e1 e2 hb1 hb hin hf room hord hr hmin hhalf wf
    rcases hsz with ⟨e, e'⟩ | ⟨e, e'⟩ | ⟨e, e'⟩ <;> rw [e'] at hlo hhi <;> rw [e] <;> clear e e' <;>
      simp at hl hlo hhi hi ⊢ <;> omega
  · rename_i hout
    have hf : t.fromInt i = none := by
      unfold IntType.fromInt
      rw [if_pos]
      simp only [Bool.or_eq_true, decide_eq_true_eq]
      omega
    simp [setSInt, hf]

example : sampleInt8.max < (2 ^ (sampleInt8.bits - 1) : Nat) := by decide
example : setSInt sampleInt8 [0#8] 0 (BitVec.ofInt 32 (-5)) = .ok [0xFB#8] := by decide
example : setSInt sampleInt8 [0#8] 0 (BitVec.ofInt 32 (-101)) = .err := by decide
example : setUInt { signed := false, size := 2, min := 3, max := 500 } [0#8, 0#8] 0 300#32
    = .ok [0x2C#8, 1#8] := by decide

/-- **C34** fails for a signed type with a negative lower bound: unsigned access refuses every
value, even those in range. -/
theorem C34_unsigned_access_refused (t : IntType) (wf : t.WF) (hmin : t.min < 0) (hmax : 0 ≤ t.max)
    (b : Board) (off : Nat) (u : BitVec 32) : setUInt t b off u = .err := by
  have hs : t.signed = true := by
    have := wf.low
    split at this
    · assumption
    · omega
  have hsz := t.size_bits wf
  have hlow := wf.low
  have hhigh := wf.high
  rw [hs] at hlow hhigh
  simp only [if_true] at hlow hhigh
  have hlo : -2147483648 ≤ t.min ∧ t.max < 2147483648 := by
    rcases hsz with ⟨_, e⟩ | ⟨_, e⟩ | ⟨_, e⟩ <;> rw [e] at hlow hhigh <;> simp at hlow hhigh <;> omega
  have hf : t.fromUInt u = none := by
    unfold IntType.fromUInt
    rw [if_pos]
    simp only [Bool.or_eq_true, decide_eq_true_eq, BitVec.toNat_ofInt]
    have := u.isLt
    simp
    omega
  simp [setUInt, hf]

/-- **C34** fails for an unsigned type using its upper half: signed access stores 200 in a `UInt8`
and reads it back as -56. -/
theorem C34_signed_read_of_unsigned_wrong :
    ∃ t : IntType, t.WF ∧ ∃ b b' : Board, t.min ≤ (200#32).toInt ∧ (200#32).toInt ≤ t.max ∧
      setSInt t b 0 200#32 = .ok b' ∧ getSInt t b' 0 = .ok (BitVec.ofInt 32 (-56)) :=
  ⟨{ signed := false, size := 1, min := 0, max := 255 }, ⟨by decide, by decide, by decide, by decide⟩,
    [0#8], [200#8], by decide, by decide, by decide, by decide⟩

/-- **C34** fails for a signed range holding only negative values: unsigned access stores a value
out of the range's meaning and reads it back differently. -/
theorem C34_unsigned_read_of_negative_wrong :
    ∃ t : IntType, t.WF ∧ ∃ b b' : Board, ∃ u : BitVec 32,
      setUInt t b 0 u = .ok b' ∧ getUInt t b' 0 ≠ .ok u :=
  ⟨{ signed := true, size := 1, min := -100, max := -1 }, ⟨by decide, by decide, by decide, by decide⟩,
    [0#8], [0xFF#8], 0xFFFFFFFF#32, by decide, by decide⟩

end PF
