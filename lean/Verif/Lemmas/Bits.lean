import Verif.Spec.Bits
import Verif.Lemmas.Bytes
import Verif.Lemmas.Numeric
import Verif.Lemmas.Scalar

/-! Helper lemmas about bit parameters. -/

namespace PF

theorem maxEncodable_getLsbD {bits : Nat} (h : bits ≤ 64) (i : Nat) :
    (maxEncodable bits).getLsbD i = decide (i < bits) := by
  unfold maxEncodable
  rw [BitVec.getLsbD_ushiftRight, BitVec.getLsbD_allOnes]
  by_cases hi : i < bits <;> simp <;> omega

theorem maxEncodable_toNat {bits : Nat} (h : bits ≤ 64) : (maxEncodable bits).toNat = 2 ^ bits - 1 := by
  apply Nat.eq_of_testBit_eq
  intro i
  rw [BitVec.testBit_toNat, maxEncodable_getLsbD h, Nat.testBit_two_pow_sub_one]

theorem BitType.mask_getLsbD {t : BitType} (wf : t.WF) (i : Nat) :
    t.mask.getLsbD i = decide (t.pos ≤ i ∧ i < t.pos + t.bits) := by
  have h1 := wf.fits
  have h2 := wf.block
  unfold BitType.mask
  rw [BitVec.getLsbD_shiftLeft, maxEncodable_getLsbD (by omega)]
  by_cases hi : t.pos ≤ i <;> by_cases hj : i < t.pos + t.bits <;> simp [hi, hj] <;> omega

theorem BitType.fromNum_getLsbD {t : BitType} (wf : t.WF) {u data d' : BitVec 64}
    (h : t.fromNum u data = some d') (i : Nat) :
    d'.getLsbD i =
      if t.pos ≤ i ∧ i < t.pos + t.bits then u.getLsbD (i - t.pos) else data.getLsbD i := by
  have h1 := wf.fits
  have h2 := wf.block
  have h3 := wf.max_fits
  unfold BitType.fromNum at h
  split at h
  · simp at h
  · rename_i hle
    simp only [Option.some.injEq] at h; subst h
    rw [BitVec.getLsbD_or, BitVec.getLsbD_and, BitVec.getLsbD_not, BitType.mask_getLsbD wf,
      BitVec.getLsbD_shiftLeft]
    by_cases hi : t.pos ≤ i
    · by_cases hj : i < t.pos + t.bits
      · have : i < 64 := by omega
        have : ¬ i < t.pos := by omega
        simp [*]
      · have hu : u.getLsbD (i - t.pos) = false := by
          rw [BitVec.getLsbD]
          apply Nat.testBit_lt_two_pow
          exact Nat.lt_of_lt_of_le (by omega) (Nat.pow_le_pow_right (by decide) (show t.bits ≤ i - t.pos by omega))
        by_cases h64 : i < 64
        · simp [hi, hj, hu, h64]
        · simp [hi, hj, hu, h64]; exact BitVec.getLsbD_of_ge data i (by omega)
    · have : i < 64 := by omega
      have : i < t.pos := by omega
      simp [*]

theorem BitType.field_getLsbD {t : BitType} (wf : t.WF) (data : BitVec 64) (i : Nat) :
    (t.field data).getLsbD i = (decide (i < t.bits) && data.getLsbD (t.pos + i)) := by
  unfold BitType.field
  rw [BitVec.getLsbD_ushiftRight, BitVec.getLsbD_and, BitType.mask_getLsbD wf]
  by_cases hj : i < t.bits <;> simp [hj]

theorem BitType.field_toNat {t : BitType} (wf : t.WF) (data : BitVec 64) :
    (t.field data).toNat = data.toNat / 2 ^ t.pos % 2 ^ t.bits := by
  apply Nat.eq_of_testBit_eq
  intro i
  rw [BitVec.testBit_toNat, BitType.field_getLsbD wf, Nat.testBit_mod_two_pow, Nat.testBit_div_two_pow,
    BitVec.testBit_toNat, Nat.add_comm]

theorem BitType.fromNum_field {t : BitType} (wf : t.WF) {u data d' : BitVec 64}
    (h : t.fromNum u data = some d') : t.field d' = u := by
  have h3 := wf.max_fits
  have hle : ¬ u.toNat > t.max.toNat := by
    intro hc; simp [BitType.fromNum, hc] at h
  apply BitVec.eq_of_getLsbD_eq
  intro i hi
  rw [BitType.field_getLsbD wf, BitType.fromNum_getLsbD wf h]
  by_cases hj : i < t.bits
  · simp [hj]
  · have : u.getLsbD i = false := by
      rw [BitVec.getLsbD]
      apply Nat.testBit_lt_two_pow
      exact Nat.lt_of_lt_of_le (by omega) (Nat.pow_le_pow_right (by decide) (show t.bits ≤ i by omega))
    simp [hj, this]

theorem decLE_lt64 {bs : List Byte} (h : bs.length ≤ 8) : decLE bs < 2 ^ 64 := by
  have := decLE_lt bs
  refine Nat.lt_of_lt_of_le this ?_
  rw [show (2:Nat) ^ 64 = 256 ^ 8 by decide]
  exact Nat.pow_le_pow_right (by decide) h

/-- The bits above the block stay clear: the new block fits in the bytes of the block. -/
theorem BitType.fromNum_lt {t : BitType} (wf : t.WF) {u d' : BitVec 64} {bs : List Byte}
    (hl : bs.length = t.blockSize)
    (h : t.fromNum u (BitVec.ofNat 64 (decLE bs)) = some d') : d'.toNat < 256 ^ t.blockSize := by
  have h1 := wf.fits
  have h2 := wf.block
  have hlt := decLE_lt bs
  rw [hl] at hlt
  rw [pow256] at hlt ⊢
  apply Nat.lt_pow_two_of_testBit
  intro i hi
  rw [BitVec.testBit_toNat, BitType.fromNum_getLsbD wf h, if_neg (by omega), BitVec.getLsbD,
    BitVec.toNat_ofNat, Nat.mod_eq_of_lt (decLE_lt64 (by omega))]
  exact Nat.testBit_lt_two_pow (Nat.lt_of_lt_of_le hlt (Nat.pow_le_pow_right (by decide) hi))

/-- Full effect of a set on the memory. -/
theorem BitType.set_effect {t : BitType} (wf : t.WF) {u : BitVec 64} {b b' : Board} {off : Nat}
    (h : t.set (t.fromNum u) b off = .ok b') :
    u.toNat ≤ t.max.toNat ∧ SameOutside b b' off t.blockSize ∧
    ∃ bs bs', b.read off t.blockSize = some bs ∧ b'.read off t.blockSize = some bs' ∧
      bitField t.pos t.bits bs' = u.toNat ∧ SameBitsOutside t.pos t.bits bs bs' := by
  unfold BitType.set BitType.readBlock at h
  split at h
  · rename_i x bs hr
    simp only [Out.bind] at h
    split at h
    · simp at h
    · rename_i d' hd
      split at h
      · rename_i b'' hw
        simp only [Out.ok.injEq] at h; subst h
        have hl := (Board.read_length hr).1
        have hread := Board.read_write_same hw
        rw [encLE_length] at hread
        have hdec : decLE (encLE t.blockSize d'.toNat) = d'.toNat := by
          rw [decLE_encLE, Nat.mod_eq_of_lt (BitType.fromNum_lt wf hl hd)]
        refine ⟨?_, ?_, bs, _, hr, hread, ?_, ?_⟩
        · simp only [BitType.fromNum] at hd
          split at hd
          · simp at hd
          · omega
        · refine ⟨(Board.write_length hw).1, ?_⟩
          intro i hi
          rw [Board.write_getElem? hw, encLE_length, if_neg (by omega)]
        · have := BitType.fromNum_field wf hd
          rw [bitField, hdec, ← BitType.field_toNat wf, this]
        · refine ⟨by rw [encLE_length, hl], ?_⟩
          intro i hi
          rw [hdec, BitVec.testBit_toNat, BitType.fromNum_getLsbD wf hd, if_neg (by omega), BitVec.getLsbD,
            BitVec.toNat_ofNat, Nat.mod_eq_of_lt (decLE_lt64 (by have := wf.block; omega))]
      · simp at h
  · simp [Out.bind] at h

theorem BitType.set_ok {t : BitType} (u : BitVec 64) {b : Board} {off : Nat}
    (room : off + t.blockSize ≤ b.length) :
    if u.toNat ≤ t.max.toNat then ∃ b', t.set (t.fromNum u) b off = .ok b'
    else t.set (t.fromNum u) b off = .err := by
  obtain ⟨bs, hr⟩ := Board.read_some room
  unfold BitType.set BitType.readBlock
  rw [hr]
  simp only [Out.bind]
  split
  · rename_i hle
    have : t.fromNum u (BitVec.ofNat 64 (decLE bs)) =
        some ((BitVec.ofNat 64 (decLE bs) &&& ~~~t.mask) ||| (u <<< t.pos)) := by
      unfold BitType.fromNum; rw [if_neg (by omega)]
    rw [this]
    obtain ⟨b', hb⟩ := Board.write_some (b := b) (off := off)
      (bs := encLE t.blockSize ((BitVec.ofNat 64 (decLE bs) &&& ~~~t.mask) ||| (u <<< t.pos)).toNat)
      (by rw [encLE_length]; exact room)
    exact ⟨b', by simp only [hb]⟩
  · rename_i hle
    have : t.fromNum u (BitVec.ofNat 64 (decLE bs)) = none := by
      unfold BitType.fromNum; rw [if_pos (by omega)]
    rw [this]

theorem BitType.readBlock_field {t : BitType} (wf : t.WF) {b : Board} {off : Nat} {bs : List Byte}
    (hr : b.read off t.blockSize = some bs) :
    ∃ d, t.readBlock b off = .ok d ∧ (t.field d).toNat = bitField t.pos t.bits bs := by
  refine ⟨BitVec.ofNat 64 (decLE bs), by simp only [BitType.readBlock, hr], ?_⟩
  have hl := (Board.read_length hr).1
  rw [BitType.field_toNat wf, BitVec.toNat_ofNat,
    Nat.mod_eq_of_lt (decLE_lt64 (by have := wf.block; omega))]
  rfl

/-- Setting a block to the field value it holds changes nothing. -/
theorem BitType.set_same {t : BitType} (wf : t.WF) {u : BitVec 64} {b : Board} {off : Nat}
    {bs : List Byte} (hr : b.read off t.blockSize = some bs) (hu : u.toNat = bitField t.pos t.bits bs)
    (hm : u.toNat ≤ t.max.toNat) : t.set (t.fromNum u) b off = .ok b := by
  have hl := Board.read_length hr
  have hok := BitType.set_ok (t := t) u hl.2
  rw [if_pos hm] at hok
  obtain ⟨b', hb'⟩ := hok
  obtain ⟨-, hs, bs0, bs', hr0, hr', hf, hso⟩ := BitType.set_effect wf hb'
  rw [hr] at hr0
  obtain rfl := Option.some.inj hr0
  have hbs : bs' = bs := by
    have e : decLE bs' = decLE bs := by
      apply Nat.eq_of_testBit_eq
      intro i
      by_cases hi : t.pos ≤ i ∧ i < t.pos + t.bits
      · have e2 : bitField t.pos t.bits bs' = bitField t.pos t.bits bs := by rw [hf, hu]
        have := congrArg (fun n => n.testBit (i - t.pos)) e2
        simp only [bitField, Nat.testBit_mod_two_pow, Nat.testBit_div_two_pow] at this
        have h1 : i - t.pos < t.bits := by omega
        have h2 : i - t.pos + t.pos = i := by omega
        simpa [h1, h2] using this
      · exact hso.2 i (by omega)
    rw [← encLE_decLE bs', ← encLE_decLE bs, hso.1, e]
  rw [hbs] at hr'
  rw [hb']
  congr 1
  have h1 := Board.write_read_same hr
  have h2 := Board.write_read_same hr'
  apply List.ext_getElem?
  intro i
  by_cases hi : off ≤ i ∧ i < off + t.blockSize
  · have e1 := Board.write_getElem? h1 i
    have e2 := Board.write_getElem? h2 i
    rw [hl.1, if_pos hi] at e1 e2
    rw [e1, e2]
  · exact hs.2 i (by omega)

/-! ## `strtoull` -/

theorem digitPrefix_of_numeral {base : Nat} {t : Str} {n : Nat} (h : Numeral base t n) :
    digitPrefix base t = t := by
  have := h.chars.2
  clear h
  induction t with
  | nil => rfl
  | cons c t ih =>
    obtain ⟨d, hd⟩ := this c (by simp)
    simp only [digitPrefix, digitVal_of_isDigit hd, Option.isSome_some, if_true]
    rw [ih (fun c hc => this c (by simp [hc]))]

theorem digitsVal_of_numeral {base : Nat} {t : Str} {n : Nat} (h : Numeral base t n) :
    digitsVal base 0 t = some n := by
  have h1 := parseNat_of_numeral h
  unfold parseNat at h1
  rwa [if_neg h.chars.1] at h1

theorem digitTable_ne : ∀ p ∈ digitTable, p.1 ∉ cSpaces ∧ p.1 ≠ '-' ∧ p.1 ≠ '+' ∧ p.1 ≠ 'x' ∧ p.1 ≠ 'X' := by
  decide

theorem Numeral.ne {base : Nat} {t : Str} {n : Nat} (h : Numeral base t n) :
    ∀ c ∈ t, c ∉ cSpaces ∧ c ≠ '-' ∧ c ≠ '+' ∧ c ≠ 'x' ∧ c ≠ 'X' := by
  intro c hc
  obtain ⟨d, hd⟩ := h.chars.2 c hc
  exact digitTable_ne _ hd.2

theorem cMagnitude_cNumeral {t : Str} {n : Nat} (h : CNumeral t n) : cMagnitude t = n := by
  have plain : ∀ {base : Nat} {t : Str}, (Numeral base t n) →
      ¬ (t.take 2 = ['0', 'x'] ∨ t.take 2 = ['0', 'X']) := by
    intro base t h
    have hx := h.ne
    match t, hx with
    | [], _ => simp
    | [c], _ => simp
    | c :: d :: r, hx =>
      have := hx d (by simp)
      simp [this.2.2.2]
  unfold cMagnitude
  cases h with
  | @dec t _ hn hz =>
    rw [if_neg (fun h => plain hn h.1), if_neg, digitPrefix_of_numeral hn, digitsVal_of_numeral hn,
      Option.getD_some]
    intro h0
    match t, h0 with
    | [], h0 => simp at h0
    | c :: r, h0 => simp at h0 hz; exact hz h0
  | @oct t _ hn hz =>
    rw [if_neg (fun h => plain hn h.1), if_pos, digitPrefix_of_numeral hn, digitsVal_of_numeral hn,
      Option.getD_some]
    match t, hz with
    | [], hz => simp at hz
    | c :: r, hz => simpa using hz
  | @hex t _ hn =>
    have e2 : List.drop 2 ('0' :: 'x' :: t) = t := rfl
    rw [e2, digitPrefix_of_numeral hn, digitsVal_of_numeral hn, if_pos ⟨Or.inl rfl, hn.chars.1⟩,
      Option.getD_some]
  | @hexUpper t _ hn =>
    have e2 : List.drop 2 ('0' :: 'X' :: t) = t := rfl
    rw [e2, digitPrefix_of_numeral hn, digitsVal_of_numeral hn, if_pos ⟨Or.inr rfl, hn.chars.1⟩,
      Option.getD_some]

theorem CNumeral.head {t : Str} {n : Nat} (h : CNumeral t n) :
    ∃ c r, t = c :: r ∧ c ∉ cSpaces ∧ c ≠ '-' ∧ c ≠ '+' := by
  have key : ∀ {base : Nat} {t : Str}, Numeral base t n →
      ∃ c r, t = c :: r ∧ c ∉ cSpaces ∧ c ≠ '-' ∧ c ≠ '+' := by
    intro base t h
    match t, h.chars.1, h.ne with
    | c :: r, _, hn =>
      have := hn c (by simp)
      exact ⟨c, r, rfl, this.1, this.2.1, this.2.2.1⟩
  cases h with
  | dec h _ => exact key h
  | oct h _ => exact key h
  | hex h => exact ⟨_, _, rfl, by decide, by decide, by decide⟩
  | hexUpper h => exact ⟨_, _, rfl, by decide, by decide, by decide⟩

theorem strtoull_cNumeral {t : Str} {n : Nat} (h : CNumeral t n) :
    strtoull t = if n < 2 ^ 64 then BitVec.ofNat 64 n else BitVec.allOnes 64 := by
  have hm := cMagnitude_cNumeral h
  obtain ⟨c, r, rfl, h1, h2, h3⟩ := h.head
  have e : (c :: r : Str).dropWhile (fun c => decide (c ∈ cSpaces)) = c :: r := by
    simp [List.dropWhile, h1]
  have e2 : splitSign (c :: r) = (false, c :: r) := by
    unfold splitSign
    split
    · rename_i heq; simp at heq; exact absurd heq.1 h2
    · rename_i heq; simp at heq; exact absurd heq.1 h3
    · rfl
  unfold strtoull
  simp only [e, e2, hm, Bool.false_eq_true, if_false]

theorem cNumeral_natText (n : Nat) : CNumeral (natText n) n := by
  by_cases h : n = 0
  · subst h
    exact .oct (.single ⟨by decide, by decide⟩) rfl
  · obtain ⟨c, r, h1, h2⟩ := natDigits_head (base := 10) (fuel := n + 1) (n := n) (by decide) (by decide) (by omega) (by omega)
    refine .dec (numeral_natText n) ?_
    unfold natText
    rw [h1]; simpa using h2

theorem BitType.toText_cNumeral (t : BitType) (ctx : Ctx) (d : BitVec 64) :
    CNumeral (t.toText ctx d) (t.field d).toNat := by
  unfold BitType.toText
  split
  · obtain ⟨u, h1, h2⟩ := numeral_hexText 0 (t.field d).toNat
    rw [h1]; exact .hex h2
  · exact cNumeral_natText _

end PF
