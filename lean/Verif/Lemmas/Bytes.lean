import Verif.Model.Bytes

/-! Helper lemmas about blackboards and little endian integers. -/

namespace PF

theorem Board.write_length {b b' : Board} {off : Nat} {bs : List Byte}
    (h : b.write off bs = some b') : b'.length = b.length ∧ off + bs.length ≤ b.length := by
  unfold Board.write at h
  split at h
  · simp only [Option.some.injEq] at h; subst h
    simp only [List.length_append, List.length_take, List.length_drop]; omega
  · simp at h

theorem Board.write_some {b : Board} {off : Nat} {bs : List Byte}
    (h : off + bs.length ≤ b.length) : ∃ b', b.write off bs = some b' := by
  simp [Board.write, h]

theorem Board.write_isSome_iff {b : Board} {off : Nat} {bs : List Byte} :
    (∃ b', b.write off bs = some b') ↔ off + bs.length ≤ b.length := by
  constructor
  · rintro ⟨b', h⟩; exact (Board.write_length h).2
  · exact Board.write_some

theorem Board.write_getElem? {b b' : Board} {off : Nat} {bs : List Byte}
    (h : b.write off bs = some b') (i : Nat) :
    b'[i]? = if off ≤ i ∧ i < off + bs.length then bs[i - off]? else b[i]? := by
  unfold Board.write at h
  split at h
  · rename_i hle
    simp only [Option.some.injEq] at h; subst h
    rw [List.append_assoc]
    by_cases h1 : i < off
    · rw [List.getElem?_append_left (by simp; omega), List.getElem?_take, if_pos h1, if_neg (by omega)]
    · rw [List.getElem?_append_right (by simp; omega)]
      simp only [List.length_take]
      rw [Nat.min_eq_left (by omega)]
      by_cases h2 : i < off + bs.length
      · rw [List.getElem?_append_left (by omega), if_pos (by omega)]
      · rw [List.getElem?_append_right (by omega), List.getElem?_drop, if_neg (by omega)]
        congr 1; omega
  · simp at h

theorem Board.read_some {b : Board} {off size : Nat} (h : off + size ≤ b.length) :
    ∃ bs, b.read off size = some bs := by simp [Board.read, h]

theorem Board.read_length {b : Board} {off size : Nat} {bs : List Byte}
    (h : b.read off size = some bs) : bs.length = size ∧ off + size ≤ b.length := by
  unfold Board.read at h
  split at h
  · simp only [Option.some.injEq] at h; subst h
    simp only [List.length_take, List.length_drop]; omega
  · simp at h

theorem Board.read_getElem? {b : Board} {off size : Nat} {bs : List Byte}
    (h : b.read off size = some bs) (i : Nat) (hi : i < size) : bs[i]? = b[off + i]? := by
  unfold Board.read at h
  split at h
  · simp only [Option.some.injEq] at h; subst h
    rw [List.getElem?_take, if_pos hi, List.getElem?_drop]
  · simp at h

/-- Reading is determined by the bytes read. -/
theorem Board.read_congr {b b' : Board} {off size : Nat} (hl : b.length = b'.length)
    (h : ∀ i, off ≤ i → i < off + size → b[i]? = b'[i]?) : b.read off size = b'.read off size := by
  unfold Board.read
  rw [hl]
  split
  · congr 1
    apply List.ext_getElem?
    intro i
    rw [List.getElem?_take, List.getElem?_take]
    split
    · rw [List.getElem?_drop, List.getElem?_drop]; exact h _ (by omega) (by omega)
    · rfl
  · rfl

theorem Board.read_write_same {b b' : Board} {off : Nat} {bs : List Byte}
    (h : b.write off bs = some b') : b'.read off bs.length = some bs := by
  have hl := Board.write_length h
  obtain ⟨cs, hcs⟩ := Board.read_some (b := b') (off := off) (size := bs.length) (by omega)
  rw [hcs]
  congr 1
  have hlen := Board.read_length hcs
  apply List.ext_getElem?
  intro i
  by_cases hi : i < bs.length
  · rw [Board.read_getElem? hcs i hi, Board.write_getElem? h, if_pos (by omega)]
    congr 1; omega
  · rw [List.getElem?_eq_none (by omega), List.getElem?_eq_none (by omega)]

theorem Board.read_write_disjoint {b b' : Board} {off : Nat} {bs : List Byte}
    (h : b.write off bs = some b') (off' size : Nat)
    (hd : off' + size ≤ off ∨ off + bs.length ≤ off') : b'.read off' size = b.read off' size := by
  apply Board.read_congr (Board.write_length h).1
  intro i h1 h2
  rw [Board.write_getElem? h, if_neg (by omega)]

/-- A read inside the written range. -/
theorem Board.read_write_inside {b b' : Board} {off : Nat} {bs : List Byte}
    (h : b.write off bs = some b') (off' size : Nat) (h1 : off ≤ off')
    (h2 : off' + size ≤ off + bs.length) :
    b'.read off' size = some ((bs.drop (off' - off)).take size) := by
  have hl := Board.write_length h
  obtain ⟨cs, hcs⟩ := Board.read_some (b := b') (off := off') (size := size) (by omega)
  rw [hcs]
  congr 1
  have hlen := Board.read_length hcs
  apply List.ext_getElem?
  intro i
  by_cases hi : i < size
  · rw [Board.read_getElem? hcs i hi, Board.write_getElem? h, if_pos (by omega), List.getElem?_take,
      if_pos hi, List.getElem?_drop]
    congr 1; omega
  · rw [List.getElem?_eq_none (by omega), List.getElem?_take, if_neg hi]

/-- Writing back what is there changes nothing. -/
theorem Board.write_read_same {b : Board} {off size : Nat} {bs : List Byte}
    (h : b.read off size = some bs) : b.write off bs = some b := by
  have hl := Board.read_length h
  obtain ⟨b', hb'⟩ := Board.write_some (b := b) (off := off) (bs := bs) (by omega)
  rw [hb']
  congr 1
  apply List.ext_getElem?
  intro i
  rw [Board.write_getElem? hb']
  split
  · rw [Board.read_getElem? h _ (by omega)]; congr 1; omega
  · rfl

theorem encLE_length (n v : Nat) : (encLE n v).length = n := by
  induction n generalizing v with
  | zero => rfl
  | succ n ih => simp [encLE, ih]

theorem decLE_encLE (n v : Nat) : decLE (encLE n v) = v % 256 ^ n := by
  induction n generalizing v with
  | zero => simp [encLE, decLE, Nat.mod_one]
  | succ n ih =>
    simp only [encLE, decLE, ih, BitVec.toNat_ofNat]
    rw [Nat.pow_succ (n := 256), Nat.mul_comm (256 ^ n) 256, Nat.mod_mul]

theorem decLE_lt (bs : List Byte) : decLE bs < 256 ^ bs.length := by
  induction bs with
  | nil => simp [decLE]
  | cons b bs ih =>
    have := b.isLt
    simp only [decLE, List.length_cons, Nat.pow_succ]
    omega

theorem encLE_decLE (bs : List Byte) : encLE bs.length (decLE bs) = bs := by
  induction bs with
  | nil => rfl
  | cons b bs ih =>
    have := b.isLt
    simp only [List.length_cons, decLE, encLE]
    congr 1
    · apply BitVec.eq_of_toNat_eq
      simp only [BitVec.toNat_ofNat]; omega
    · rw [show (b.toNat + 256 * decLE bs) / 256 = decLE bs by omega, ih]

theorem encLE_mod (n v : Nat) : encLE n (v % 256 ^ n) = encLE n v := by
  have h := encLE_decLE (encLE n v)
  rw [encLE_length, decLE_encLE] at h
  exact h

theorem encLE_inj {n v w : Nat} (hv : v < 256 ^ n) (hw : w < 256 ^ n) (h : encLE n v = encLE n w) :
    v = w := by
  have := congrArg decLE h
  rwa [decLE_encLE, decLE_encLE, Nat.mod_eq_of_lt hv, Nat.mod_eq_of_lt hw] at this

theorem cString_spec (t rest : List Byte) (h : 0#8 ∉ t) : cString (t ++ 0#8 :: rest) = some t := by
  induction t with
  | nil => simp [cString]
  | cons b t ih =>
    simp only [List.mem_cons, not_or] at h
    have hb : b ≠ 0#8 := fun e => h.1 e.symm
    simp [cString, hb, ih h.2]

end PF
