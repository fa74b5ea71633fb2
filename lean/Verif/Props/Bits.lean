import Verif.Lemmas.Bits

/-!
# Bit parameters (C37)
-/

namespace PF

/-- A field of 5 bits at position 6 of a 16-bit block, limited to 20. -/
def sampleBits : BitType := { blockSize := 2, pos := 6, bits := 5, max := 20#64 }

theorem sampleBits_wf : sampleBits.WF := ⟨by decide, by decide, by decide, by decide⟩

/-- Loading a declaration yields a well-formed type (blocks are at most 64 bits) or is refused; the
declaration is accepted exactly when the field is inside its block and the maximum fits the field.
A field of zero bits inside the block is undefined behaviour.  (The sum of position and size is
computed on 64 bits: `hw` says that it does not wrap.) -/
theorem C37_declaration (blockSize pos bits : Nat) (hb : blockSize ≤ 8) (hw : pos + bits < 2 ^ 64)
    (max : Option (BitVec 64)) :
    (∀ t, BitType.load blockSize pos bits max = .ok t →
      t.WF ∧ t.blockSize = blockSize ∧ t.pos = pos ∧ t.bits = bits ∧
      t.max.toNat = (match max with | none => 2 ^ bits - 1 | some m => m.toNat)) ∧
    (1 ≤ bits → ((∃ t, BitType.load blockSize pos bits max = .ok t) ↔
      pos + bits ≤ 8 * blockSize ∧ ∀ m, max = some m → m.toNat ≤ 2 ^ bits - 1)) ∧
    (BitType.load blockSize pos bits max = .abort ↔ bits = 0 ∧ pos ≤ 8 * blockSize) := by
  have hpos : 0 < 2 ^ bits := Nat.two_pow_pos bits
  unfold BitType.load
  rw [Nat.mod_eq_of_lt hw]
  by_cases h1 : pos + bits > blockSize * 8
  · simp only [if_pos h1]
    refine ⟨by simp, fun _ => ?_, by simp; omega⟩
    simp; omega
  · simp only [if_neg h1]
    have h64 : ¬ bits > 64 := by omega
    simp only [h64, or_false]
    by_cases h2 : bits = 0
    · simp only [if_pos h2]
      refine ⟨by simp, fun _ => by omega, by simp [h2]; omega⟩
    · simp only [if_neg h2]
      have hm := maxEncodable_toNat (bits := bits) (by omega)
      cases max with
      | none =>
        refine ⟨?_, fun _ => by simp; omega, by simp [h2]⟩
        intro t ht
        simp only [Out.ok.injEq] at ht; subst ht
        exact ⟨⟨by simp; omega, by simp; omega, hb, by simp [hm]; omega⟩, rfl, rfl, rfl, by simp [hm]⟩
      | some m =>
        simp only [hm]
        by_cases h3 : m.toNat > 2 ^ bits - 1
        · simp only [if_pos h3]
          exact ⟨by simp, fun _ => by simp; omega, by simp [h2]⟩
        · simp only [if_neg h3]
          refine ⟨?_, fun _ => by simp; omega, by simp [h2]⟩
          intro t ht
          simp only [Out.ok.injEq] at ht; subst ht
          exact ⟨⟨by simp; omega, by simp; omega, hb, by simp; omega⟩, rfl, rfl, rfl, rfl⟩

/-- Without the bound on the sum, which only the schema gives, a position far outside the block is
accepted: the sum wraps. -/
theorem C37_declaration_wraps : ∃ t, BitType.load 2 (2 ^ 64 - 1) 1 none = .ok t ∧ ¬ t.WF :=
  ⟨⟨2, 2 ^ 64 - 1, 1, 1#64⟩, by decide +kernel, fun h => by have := h.fits; simp at this⟩

example : ∃ t, BitType.load 2 6 5 (some 20#64) = .ok t ∧ t = sampleBits := ⟨_, rfl, rfl⟩

/-- **C37** (integer access).  An integer is accepted exactly when it is at most the maximum.  After
the set, the bits of the field hold the number, no other bit of the block and no other byte changed,
and the integer read back is the one set.  Otherwise the set is refused. -/
theorem C37_integer_access (t : BitType) (wf : t.WF) (b : Board) (off : Nat)
    (room : off + t.blockSize ≤ b.length) (u : BitVec 32) :
    if u.toNat ≤ t.max.toNat then
      ∃ b' bs bs', setBitUInt t b off u = .ok b' ∧ SameOutside b b' off t.blockSize ∧
        b.read off t.blockSize = some bs ∧ b'.read off t.blockSize = some bs' ∧
        bitField t.pos t.bits bs' = u.toNat ∧ SameBitsOutside t.pos t.bits bs bs' ∧
        getBitUInt t b' off = .ok u
    else setBitUInt t b off u = .err := by
  have hu : (u.setWidth 64).toNat = u.toNat := by
    have := u.isLt
    simp; omega
  have hok := BitType.set_ok (t := t) (u.setWidth 64) room
  rw [hu] at hok
  split
  · rename_i hle
    rw [if_pos hle] at hok
    obtain ⟨b', hb'⟩ := hok
    obtain ⟨-, hs, bs, bs', h1, h2, h3, h4⟩ := BitType.set_effect wf hb'
    refine ⟨b', bs, bs', hb', hs, h1, h2, by rw [h3, hu], h4, ?_⟩
    obtain ⟨d, hd, hf⟩ := BitType.readBlock_field wf h2
    unfold getBitUInt
    rw [hd]
    simp only [Out.bind, Out.ok.injEq, BitType.toUInt]
    apply BitVec.eq_of_toNat_eq
    rw [BitVec.toNat_setWidth, hf, h3, hu]
    exact Nat.mod_eq_of_lt u.isLt
  · rename_i hle
    rw [if_neg hle] at hok
    exact hok

example : setBitUInt sampleBits [9#8, 0xFF#8, 0x12#8] 1 17#32 = .ok [9#8, 0x7F#8, 0x14#8] ∧
    getBitUInt sampleBits [9#8, 0x7F#8, 0x14#8] 1 = .ok 17#32 ∧
    setBitUInt sampleBits [9#8, 0xFF#8, 0x12#8] 1 21#32 = .err := by decide

/-- **C37** (text access), for texts that are numbers of at most 64 bits: accepted exactly when the
number is at most the maximum, with the same effect as the integer access; otherwise refused.
Missing: texts that are not numbers, see the witnesses below. -/
theorem C37_text_access_partial (t : BitType) (wf : t.WF) (b : Board) (off : Nat)
    (room : off + t.blockSize ≤ b.length) (text : Str) (n : Nat) (hn : CNumeral text n)
    (h64 : n < 2 ^ 64) :
    if n ≤ t.max.toNat then
      ∃ b' bs bs', setBitText t b off text = .ok b' ∧ SameOutside b b' off t.blockSize ∧
        b.read off t.blockSize = some bs ∧ b'.read off t.blockSize = some bs' ∧
        bitField t.pos t.bits bs' = n ∧ SameBitsOutside t.pos t.bits bs bs' ∧
        ∀ ctx, ∃ out, getBitText t ctx b' off = .ok out ∧ CNumeral out n ∧
          (¬ (ctx.raw = true ∧ ctx.hex = true) → out = natText n)
    else setBitText t b off text = .err := by
  have hs0 := strtoull_cNumeral hn
  rw [if_pos h64] at hs0
  have hu : (strtoull text).toNat = n := by rw [hs0, BitVec.toNat_ofNat, Nat.mod_eq_of_lt h64]
  have hok := BitType.set_ok (t := t) (strtoull text) room
  rw [hu] at hok
  split
  · rename_i hle
    rw [if_pos hle] at hok
    obtain ⟨b', hb'⟩ := hok
    obtain ⟨-, hs, bs, bs', h1, h2, h3, h4⟩ := BitType.set_effect wf hb'
    refine ⟨b', bs, bs', hb', hs, h1, h2, by rw [h3, hu], h4, ?_⟩
    intro ctx
    obtain ⟨d, hd, hf⟩ := BitType.readBlock_field wf h2
    have hfn : (t.field d).toNat = n := by rw [hf, h3, hu]
    refine ⟨t.toText ctx d, ?_, ?_, ?_⟩
    · unfold getBitText; rw [hd]; rfl
    · have := t.toText_cNumeral ctx d
      rwa [hfn] at this
    · intro hc
      unfold BitType.toText
      rw [if_neg (by simpa using hc), hfn]
  · rename_i hle
    rw [if_neg hle] at hok
    exact hok

example : CNumeral (s "0xa") 10 ∧ (10 : Nat) ≤ sampleBits.max.toNat :=
  ⟨.hex (.single ⟨by decide, by decide⟩), by decide⟩

/-- **C37** (reading then setting).  The text read denotes the number in the field, and setting it
again is refused when the number is above the maximum and changes nothing otherwise. -/
theorem C37_get_then_set (t : BitType) (wf : t.WF) (ctx : Ctx) (b : Board) (off : Nat) (bs : List Byte)
    (hr : b.read off t.blockSize = some bs) :
    ∃ out, getBitText t ctx b off = .ok out ∧ CNumeral out (bitField t.pos t.bits bs) ∧
      setBitText t b off out = if bitField t.pos t.bits bs ≤ t.max.toNat then .ok b else .err := by
  obtain ⟨d, hd, hf⟩ := BitType.readBlock_field wf hr
  refine ⟨t.toText ctx d, by unfold getBitText; rw [hd]; rfl, ?_, ?_⟩
  · rw [← hf]; exact t.toText_cNumeral ctx d
  · have hc := t.toText_cNumeral ctx d
    rw [hf] at hc
    have hs0 := strtoull_cNumeral hc
    have h64 : bitField t.pos t.bits bs < 2 ^ 64 := by rw [← hf]; exact (t.field d).isLt
    rw [if_pos h64] at hs0
    have hu : (strtoull (t.toText ctx d)).toNat = bitField t.pos t.bits bs := by
      rw [hs0, BitVec.toNat_ofNat, Nat.mod_eq_of_lt h64]
    split
    · rename_i hle
      exact BitType.set_same wf hr hu (by rw [hu]; exact hle)
    · rename_i hle
      have hok := BitType.set_ok (t := t) (strtoull (t.toText ctx d)) (Board.read_length hr).2
      rw [hu, if_neg hle] at hok
      exact hok

example : Board.read [9#8, 0x7F#8, 0x14#8] 1 2 = some [0x7F#8, 0x14#8] ∧
    bitField 6 5 [0x7F#8, 0x14#8] = 17 := by decide

/-- **C37** (Boolean access).  A field of one bit can be set and read as a Boolean (`true` needs a
maximum of 1); any other field refuses Boolean access. -/
theorem C37_boolean_access (t : BitType) (wf : t.WF) (b : Board) (off : Nat)
    (room : off + t.blockSize ≤ b.length) (v : Bool) :
    (t.bits ≠ 1 → setBitBool t b off v = .err ∧ getBitBool t b off = .err) ∧
    (t.bits = 1 → v.toNat ≤ t.max.toNat → ∃ b', setBitBool t b off v = .ok b' ∧
      SameOutside b b' off t.blockSize ∧ getBitBool t b' off = .ok v) ∧
    (t.bits = 1 → ¬ v.toNat ≤ t.max.toNat → setBitBool t b off v = .err) := by
  have hv : (if v then 1#32 else 0#32 : BitVec 32).toNat = v.toNat := by cases v <;> rfl
  have h := C37_integer_access t wf b off room (if v then 1#32 else 0#32)
  rw [hv] at h
  refine ⟨?_, ?_, ?_⟩
  · intro hb; simp [setBitBool, getBitBool, hb]
  · intro hb hle
    rw [if_pos hle] at h
    obtain ⟨b', bs, bs', h1, h2, _, _, _, _, h3⟩ := h
    refine ⟨b', by simp [setBitBool, hb, h1], h2, ?_⟩
    simp only [getBitBool, hb, ne_eq, not_true_eq_false, if_false, h3, Out.bind]
    cases v <;> rfl
  · intro hb hle
    rw [if_neg hle] at h
    simp [setBitBool, hb, h]

example : setBitBool ⟨1, 3, 1, 1#64⟩ [0xF0#8] 0 true = .ok [0xF8#8] := by decide

/-! ## Where the code departs from the property -/

/-- A text that is not a number is accepted: it stands for 0, and text after a number is ignored. -/
theorem C37_garbage_text_accepted :
    setBitText sampleBits [0xFF#8, 0xFF#8] 0 (s "abc") = .ok [0x3F#8, 0xF8#8] ∧
    setBitText sampleBits [0#8, 0#8] 0 (s "3 apples") = .ok [0xC0#8, 0#8] := by decide

/-- A number too large for 64 bits is accepted by a field that takes all of them. -/
theorem C37_overflow_accepted :
    setBitText ⟨8, 0, 64, BitVec.allOnes 64⟩ (List.replicate 8 0#8) 0 (s "99999999999999999999") =
      .ok (List.replicate 8 0xFF#8) := by decide +kernel

/-- Integer access reads only the low 32 bits of a wider field. -/
theorem C37_wide_field_truncated :
    ∃ b, setBitText ⟨8, 0, 40, 0xFFFFFFFFFF#64⟩ (List.replicate 8 0#8) 0 (s "4294967303") = .ok b ∧
      getBitText ⟨8, 0, 40, 0xFFFFFFFFFF#64⟩ ⟨false, false⟩ b 0 = .ok (s "4294967303") ∧
      getBitUInt ⟨8, 0, 40, 0xFFFFFFFFFF#64⟩ b 0 = .ok 7#32 :=
  ⟨[7#8, 0#8, 0#8, 0#8, 1#8, 0#8, 0#8, 0#8], by decide +kernel, by decide +kernel, by decide +kernel⟩

/-- For which integers the whole of the property holds on reading: fields of at most 32 bits. -/
theorem C37_narrow_field_read (t : BitType) (wf : t.WF) (hn : t.bits ≤ 32) (b : Board) (off : Nat)
    (bs : List Byte) (hr : b.read off t.blockSize = some bs) :
    ∃ u, getBitUInt t b off = .ok u ∧ u.toNat = bitField t.pos t.bits bs := by
  obtain ⟨d, hd, hf⟩ := BitType.readBlock_field wf hr
  refine ⟨t.toUInt d, by unfold getBitUInt; rw [hd]; rfl, ?_⟩
  rw [BitType.toUInt, BitVec.toNat_setWidth, hf]
  apply Nat.mod_eq_of_lt
  refine Nat.lt_of_lt_of_le (Nat.mod_lt _ (Nat.two_pow_pos _)) (Nat.pow_le_pow_right (by decide) hn)

end PF
