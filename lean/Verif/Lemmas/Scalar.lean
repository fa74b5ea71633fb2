import Verif.Model.ScalarTypes
import Verif.Lemmas.Bytes
import Verif.Lemmas.Numeric

/-! Helper lemmas about the scalar parameter types. -/

namespace PF

theorem signExtend_toInt {size : Nat} (h : size = 1 ∨ size = 2 ∨ size = 4) (v : BitVec 32) :
    (signExtend size v).toInt = Int.bmod v.toNat (2 ^ (8 * size)) := by
  unfold signExtend
  rw [BitVec.toInt_sshiftRight, BitVec.toInt_shiftLeft, Int.shiftRight_eq_div_pow]
  have hv := v.isLt
  rcases h with rfl | rfl | rfl <;>
    simp only [Nat.shiftLeft_eq, Int.bmod_def] <;> simp <;> omega

theorem signExtend_eq {size : Nat} (h : size = 1 ∨ size = 2 ∨ size = 4) (v : BitVec 32) :
    signExtend size v = BitVec.ofInt 32 (Int.bmod v.toNat (2 ^ (8 * size))) := by
  rw [← signExtend_toInt h, BitVec.ofInt_toInt]

theorem pow256 (n : Nat) : 256 ^ n = 2 ^ (8 * n) := by
  rw [Nat.pow_mul]

/-- Value read from the board after a value is written at the same place. -/
theorem readScalar_writeScalar {size : Nat} {b b' : Board} {off : Nat} {v : BitVec 32}
    (h : writeScalar size b off v = .ok b') :
    readScalar size b' off = .ok (BitVec.ofNat 32 (v.toNat % 2 ^ (8 * size))) := by
  unfold writeScalar at h
  split at h
  · rename_i b'' hw
    simp only [Out.ok.injEq] at h; subst h
    have := Board.read_write_same hw
    rw [encLE_length] at this
    unfold readScalar
    rw [this]
    simp only [decLE_encLE, pow256]
  · simp at h

/-- Writing changes only the bytes of the parameter. -/
theorem writeScalar_frame {size : Nat} {b b' : Board} {off : Nat} {v : BitVec 32}
    (h : writeScalar size b off v = .ok b') :
    b'.length = b.length ∧ ∀ i, i < off ∨ off + size ≤ i → b'[i]? = b[i]? := by
  unfold writeScalar at h
  split at h
  · rename_i b'' hw
    simp only [Out.ok.injEq] at h; subst h
    refine ⟨(Board.write_length hw).1, ?_⟩
    intro i hi
    rw [Board.write_getElem? hw, encLE_length, if_neg (by omega)]
  · simp at h

theorem writeScalar_ok {size : Nat} {b : Board} {off : Nat} (v : BitVec 32)
    (h : off + size ≤ b.length) : ∃ b', writeScalar size b off v = .ok b' := by
  obtain ⟨b', hb⟩ := Board.write_some (b := b) (off := off) (bs := encLE size v.toNat)
    (by rw [encLE_length]; exact h)
  exact ⟨b', by simp [writeScalar, hb]⟩

/-- Two raw values with the same low bits are written alike. -/
theorem writeScalar_mod {size : Nat} {b : Board} {off : Nat} {v w : BitVec 32}
    (h : v.toNat % 2 ^ (8 * size) = w.toNat % 2 ^ (8 * size)) :
    writeScalar size b off v = writeScalar size b off w := by
  unfold writeScalar
  rw [← encLE_mod size v.toNat, ← encLE_mod size w.toNat, pow256, h]

theorem writeScalar_twice {size : Nat} {b b' : Board} {off : Nat} {v : BitVec 32}
    (h : writeScalar size b off v = .ok b') : writeScalar size b' off v = .ok b' := by
  unfold writeScalar at h ⊢
  split at h
  · rename_i b'' hw
    simp only [Out.ok.injEq] at h; subst h
    have := Board.write_read_same (Board.read_write_same hw)
    rw [this]
  · simp at h

end PF
