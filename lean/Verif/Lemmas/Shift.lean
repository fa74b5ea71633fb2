import Verif.Lemmas.Area
import Verif.Lemmas.TreeAccess

/-! # A parameter behaves the same in two memories that agree on its bits -/

namespace PF
open Spec

/-- The two memories agree on the bits `lo ≤ k < hi` counted from their own offsets, and both have
`n` bytes from there. -/
structure Alike (lo hi n : Nat) (b1 : Board) (o1 : Nat) (b2 : Board) (o2 : Nat) : Prop where
  room1 : o1 + n ≤ b1.length
  room2 : o2 + n ≤ b2.length
  bits : ∀ k, lo ≤ k → k < hi → b1.bit (8 * o1 + k) = b2.bit (8 * o2 + k)

/-- A result that comes with a board. -/
def SameOut (lo hi n : Nat) (r1 : Out Unit × Board) (o1 : Nat) (r2 : Out Unit × Board) (o2 : Nat) : Prop :=
  r1.1 = r2.1 ∧ Alike lo hi n r1.2 o1 r2.2 o2

theorem Alike.read {n j k : Nat} {b1 b2 : Board} {o1 o2 : Nat} (h : Alike 0 (8 * n) n b1 o1 b2 o2) (hj : j + k ≤ n) :
    b1.read (o1 + j) k = b2.read (o2 + j) k := by
  obtain ⟨x, hx⟩ := Board.read_some (b := b1) (off := o1 + j) (size := k) (by have := h.room1; omega)
  obtain ⟨y, hy⟩ := Board.read_some (b := b2) (off := o2 + j) (size := k) (by have := h.room2; omega)
  rw [hx, hy]
  congr 1
  refine Board.ext_bits (by rw [(Board.read_length hx).1, (Board.read_length hy).1]) fun i => ?_
  rw [Board.read_bit hx, Board.read_bit hy]
  by_cases hi : i < 8 * k
  · have := h.bits (8 * j + i) (by omega) (by omega)
    rw [show 8 * (o1 + j) + i = 8 * o1 + (8 * j + i) by omega, show 8 * (o2 + j) + i = 8 * o2 + (8 * j + i) by omega, this]
  · simp [hi]

theorem Alike.write {n j : Nat} {b1 b2 : Board} {o1 o2 : Nat} (h : Alike 0 (8 * n) n b1 o1 b2 o2) {bs : List Byte}
    (hj : j + bs.length ≤ n) :
    ∃ c1 c2, b1.write (o1 + j) bs = some c1 ∧ b2.write (o2 + j) bs = some c2 ∧ Alike 0 (8 * n) n c1 o1 c2 o2 := by
  obtain ⟨c1, h1⟩ := Board.write_some (b := b1) (off := o1 + j) (bs := bs) (by have := h.room1; omega)
  obtain ⟨c2, h2⟩ := Board.write_some (b := b2) (off := o2 + j) (bs := bs) (by have := h.room2; omega)
  refine ⟨c1, c2, h1, h2, ?_, ?_, ?_⟩
  · rw [(Board.write_length h1).1]; exact h.room1
  · rw [(Board.write_length h2).1]; exact h.room2
  · intro k hk hk'
    rw [Board.write_bit h1, Board.write_bit h2]
    by_cases hin : 8 * j ≤ k ∧ k < 8 * (j + bs.length)
    · rw [if_pos (by omega), if_pos (by omega)]
      congr 1
      omega
    · rw [if_neg (by omega), if_neg (by omega)]
      exact h.bits k hk hk'

theorem Alike.writeScalar {n j size : Nat} {b1 b2 : Board} {o1 o2 : Nat} (h : Alike 0 (8 * n) n b1 o1 b2 o2)
    (v : BitVec 32) (hj : j + size ≤ n) :
    ∃ c1 c2, PF.writeScalar size b1 (o1 + j) v = .ok c1 ∧ PF.writeScalar size b2 (o2 + j) v = .ok c2 ∧
      Alike 0 (8 * n) n c1 o1 c2 o2 := by
  obtain ⟨c1, c2, h1, h2, h3⟩ := h.write (j := j) (bs := encLE size v.toNat) (by rw [encLE_length]; exact hj)
  exact ⟨c1, c2, by simp [PF.writeScalar, h1], by simp [PF.writeScalar, h2], h3⟩

theorem Alike.setElems {n size : Nat} (vs : List (Option (BitVec 32))) {j : Nat} {b1 b2 : Board} {o1 o2 : Nat}
    (h : Alike 0 (8 * n) n b1 o1 b2 o2) (hj : j + vs.length * size ≤ n) :
    SameOut 0 (8 * n) n (PF.setElems size b1 (o1 + j) vs) o1 (PF.setElems size b2 (o2 + j) vs) o2 := by
  induction vs generalizing b1 b2 j with
  | nil => exact ⟨rfl, h⟩
  | cons v vs ih =>
    cases v with
    | none => exact ⟨rfl, h⟩
    | some v =>
      rw [List.length_cons, Nat.succ_mul] at hj
      obtain ⟨c1, c2, h1, h2, h3⟩ := h.writeScalar (j := j) (size := size) v (by omega)
      simp only [PF.setElems, h1, h2]
      have := ih (j := j + size) h3 (by omega)
      rw [Nat.add_assoc, Nat.add_assoc]
      exact this

/-- The relation for the memory of a parameter. -/
def Elem.Alike (e : Elem) (b1 : Board) (o1 : Nat) (b2 : Board) (o2 : Nat) : Prop :=
  PF.Alike (e.extent 0).1 (e.extent 0).2 e.areaSize b1 o1 b2 o2

theorem setParamText_alike {rd : Reader} {ctx : Ctx} {e : Elem} (wf : ∀ t, e.kind = .bit t → t.WF)
    {b1 b2 : Board} {off base off' base' : Nat} (hb : base ≤ off) (hb' : base' ≤ off')
    (h : e.Alike b1 (off - base) b2 (off' - base')) (text : Str) :
    (setParamText rd ctx e.kind b1 off base [] text).1 = (setParamText rd ctx e.kind b2 off' base' [] text).1 ∧
    e.Alike (setParamText rd ctx e.kind b1 off base [] text).2 (off - base)
      (setParamText rd ctx e.kind b2 off' base' [] text).2 (off' - base') := by
  have n1 : ¬ off < base := by omega
  have n2 : ¬ off' < base' := by omega
  generalize ho : off - base = o at *
  generalize ho' : off' - base' = o' at *
  cases e with | mk nm k sy cs =>
  simp only [Elem.Alike, Elem.kind] at *
  cases k with
  | group g => exact ⟨rfl, h⟩
  | bitBlock g => exact ⟨rfl, h⟩
  | scalar t =>
    have h' : PF.Alike 0 (8 * t.size) t.size b1 o b2 o' := by
      simpa [Elem.extent, Elem.kind, Elem.areaSize, Elem.footprint, EKind.ownSize] using h
    simp only [setParamText, ne_eq, not_true_eq_false, ↓reduceIte, n1, n2, setScalarText]
    cases t.fromText rd ctx text with
    | none => simp only [Out.withBoard]; exact ⟨trivial, h⟩
    | some v =>
      obtain ⟨c1, c2, h1, h2, h3⟩ := h'.writeScalar (j := 0) (size := t.size) v (by omega)
      rw [Nat.add_zero] at h1 h2
      simp only [ho, ho', h1, h2, Out.withBoard]
      exact ⟨trivial, by simpa [Elem.extent, Elem.kind, Elem.areaSize, Elem.footprint, EKind.ownSize] using h3⟩
  | array t =>
    have h' : PF.Alike 0 (8 * t.footprint) t.footprint b1 o b2 o' := by
      simpa [Elem.extent, Elem.kind, Elem.areaSize, Elem.footprint, EKind.ownSize] using h
    simp only [setParamText, arrayAccessSet, arrayIndex, n1, n2, ↓reduceIte, setArrayText, ho, ho', Option.getD_none]
    split
    · exact ⟨rfl, h⟩
    · rename_i hlen
      have := h'.setElems (size := t.elem.size) (j := 0)
        ((tokenize arrayDelimiters true text).map (fun tok => t.elem.fromText rd ctx tok)) (by
          rw [List.length_map, Nat.zero_add, ArrayType.footprint, Nat.mul_comm t.elem.size]
          exact Nat.mul_le_mul_right _ (by omega))
      simp only [Nat.zero_mul]
      exact ⟨this.1, by
        have h2 := this.2
        simpa [Elem.extent, Elem.kind, Elem.areaSize, Elem.footprint, EKind.ownSize] using h2⟩
  | string m =>
    have h' : PF.Alike 0 (8 * stringSize m) (stringSize m) b1 o b2 o' := by
      simpa [Elem.extent, Elem.kind, Elem.areaSize, Elem.footprint, EKind.ownSize] using h
    simp only [setParamText, ne_eq, not_true_eq_false, ↓reduceIte, n1, n2, setString, ho, ho']
    by_cases hl : (strBytes text).length ≥ stringSize m
    · simp only [if_pos hl, Out.withBoard]; exact ⟨trivial, h⟩
    · simp only [if_neg hl, Board.writeString]
      obtain ⟨c1, c2, h1, h2, h3⟩ := h'.write (j := 0) (bs := strBytes text ++ [0#8]) (by
        rw [List.length_append]; simp only [List.length_cons, List.length_nil]; omega)
      rw [Nat.add_zero] at h1 h2
      simp only [h1, h2, Out.withBoard]
      exact ⟨trivial, by simpa [Elem.extent, Elem.kind, Elem.areaSize, Elem.footprint, EKind.ownSize] using h3⟩
  | bit t =>
    have w := wf t rfl
    have hf := w.fits
    have h' : PF.Alike t.pos (t.pos + t.bits) t.blockSize b1 o b2 o' := by
      simpa [Elem.extent, Elem.kind, Elem.areaSize] using h
    simp only [setParamText, ne_eq, not_true_eq_false, ↓reduceIte, n1, n2, ho, ho']
    have total : ∀ (b : Board) (q : Nat), q + t.blockSize ≤ b.length →
        ((strtoull text).toNat > t.max.toNat ∧ setBitText t b q text = .err) ∨
        ((strtoull text).toNat ≤ t.max.toNat ∧ ∃ b', setBitText t b q text = .ok b') := by
      intro b q hq
      obtain ⟨x, hx⟩ := Board.read_some hq
      by_cases hm : (strtoull text).toNat > t.max.toNat
      · exact .inl ⟨hm, by simp [setBitText, BitType.set, BitType.readBlock, hx, Out.bind, BitType.fromText, BitType.fromNum, hm]⟩
      · refine .inr ⟨by omega, ?_⟩
        obtain ⟨b', hb'⟩ := Board.write_some (b := b) (off := q) (bs := encLE t.blockSize
          ((BitVec.ofNat 64 (decLE x) &&& ~~~t.mask) ||| (strtoull text <<< t.pos)).toNat) (by rw [encLE_length]; exact hq)
        exact ⟨b', by simp only [setBitText, BitType.set, BitType.readBlock, hx, Out.bind, BitType.fromText, BitType.fromNum, hm,
          ↓reduceIte, hb']⟩
    rcases total b1 o h'.room1 with ⟨m1, e1⟩ | ⟨m1, c1, e1⟩ <;> rcases total b2 o' h'.room2 with ⟨m2, e2⟩ | ⟨m2, c2, e2⟩
    · simp only [e1, e2, Out.withBoard]; exact ⟨trivial, h⟩
    · omega
    · omega
    · simp only [e1, e2, Out.withBoard]
      refine ⟨trivial, ?_⟩
      obtain ⟨_, s1, x1, y1, r1, q1, f1, g1⟩ := BitType.set_effect w e1
      obtain ⟨_, s2, x2, y2, r2, q2, f2, g2⟩ := BitType.set_effect w e2
      have : PF.Alike t.pos (t.pos + t.bits) t.blockSize c1 o c2 o' := by
        refine ⟨by rw [s1.1]; exact h'.room1, by rw [s2.1]; exact h'.room2, ?_⟩
        intro k hk hk'
        have hb1 := Board.read_bit q1 k
        have hb2 := Board.read_bit q2 k
        simp only [show k < 8 * t.blockSize by omega, decide_true, Bool.true_and] at hb1 hb2
        rw [← hb1, ← hb2, ← decLE_testBit, ← decLE_testBit]
        have key : ∀ y : List Byte, bitField t.pos t.bits y = (strtoull text).toNat →
            (decLE y).testBit k = ((strtoull text).toNat).testBit (k - t.pos) := by
          intro y hy
          rw [← hy]
          unfold bitField
          rw [Nat.testBit_mod_two_pow, Nat.testBit_div_two_pow]
          simp [show k - t.pos < t.bits by omega, show k - t.pos + t.pos = k by omega]
        rw [key y1 f1, key y2 f2]
      simpa [Elem.extent, Elem.kind, Elem.areaSize] using this

theorem getElems_alike {t : ScalarType} {ctx : Ctx} {n : Nat} {b1 b2 : Board} {o1 o2 : Nat}
    (h : Alike 0 (8 * n) n b1 o1 b2 o2) {j k : Nat} (hj : j + k * t.size ≤ n) :
    getElems t ctx b1 (o1 + j) k = getElems t ctx b2 (o2 + j) k := by
  induction k generalizing j with
  | zero => rfl
  | succ k ih =>
    rw [Nat.succ_mul] at hj
    unfold getElems
    have e1 : getScalarText t ctx b1 (o1 + j) = getScalarText t ctx b2 (o2 + j) := by
      unfold getScalarText readScalar
      rw [h.read (j := j) (k := t.size) (by omega)]
    have := ih (j := j + t.size) (by omega)
    rw [e1, Nat.add_assoc, Nat.add_assoc, this]

theorem getParamText_alike {ctx : Ctx} {e : Elem} (wf : ∀ t, e.kind = .bit t → t.WF)
    {b1 b2 : Board} {off base off' base' : Nat} (hb : base ≤ off) (hb' : base' ≤ off')
    (h : e.Alike b1 (off - base) b2 (off' - base'))
    (term : ∀ m, e.kind = .string m → StringTerminated b1 (off - base) m) :
    getParamText ctx e.kind b1 off base [] = getParamText ctx e.kind b2 off' base' [] := by
  have n1 : ¬ off < base := by omega
  have n2 : ¬ off' < base' := by omega
  generalize ho : off - base = o at *
  generalize ho' : off' - base' = o' at *
  cases e with | mk nm k sy cs =>
  simp only [Elem.Alike, Elem.kind] at *
  cases k with
  | group g => rfl
  | bitBlock g => rfl
  | scalar t =>
    have h' : PF.Alike 0 (8 * t.size) t.size b1 o b2 o' := by
      simpa [Elem.extent, Elem.kind, Elem.areaSize, Elem.footprint, EKind.ownSize] using h
    have := h'.read (j := 0) (k := t.size) (by omega)
    simp only [Nat.add_zero] at this
    simp only [getParamText, ne_eq, not_true_eq_false, ↓reduceIte, n1, n2, ho, ho', getScalarText, readScalar, this]
  | array t =>
    have h' : PF.Alike 0 (8 * t.footprint) t.footprint b1 o b2 o' := by
      simpa [Elem.extent, Elem.kind, Elem.areaSize, Elem.footprint, EKind.ownSize] using h
    have := getElems_alike (t := t.elem) (ctx := ctx) h' (j := 0) (k := t.length) (by
      rw [ArrayType.footprint, Nat.mul_comm t.elem.size]; omega)
    simp only [Nat.add_zero] at this
    simp only [getParamText, arrayAccessGet, arrayIndex, n1, n2, ↓reduceIte, ho, ho', getArrayText, this]
  | string m =>
    have h' : PF.Alike 0 (8 * stringSize m) (stringSize m) b1 o b2 o' := by
      simpa [Elem.extent, Elem.kind, Elem.areaSize, Elem.footprint, EKind.ownSize] using h
    obtain ⟨bs, hbs, h0⟩ := term m rfl
    have h2 := h'.read (j := 0) (k := stringSize m) (by omega)
    simp only [Nat.add_zero] at h2
    have key : ∀ (c : Board) (q : Nat), c.read q (stringSize m) = some bs →
        getString c q = .ok (bs.takeWhile (fun c => decide (c ≠ 0#8))) := by
      intro c q hc
      have hlen := (Board.read_length hc).2
      have hd : c.drop q = bs ++ (c.drop q).drop (stringSize m) := by
        unfold Board.read at hc
        rw [if_pos hlen] at hc
        simp only [Option.some.injEq] at hc
        rw [← hc, List.take_append_drop]
      unfold getString Board.readString
      rw [if_pos (by unfold stringSize at hlen; omega), hd, cString_cons_of_mem bs _ h0]
    simp only [getParamText, ne_eq, not_true_eq_false, ↓reduceIte, n1, n2, ho, ho']
    rw [key b1 o hbs, key b2 o' (h2 ▸ hbs)]
  | bit t =>
    have w := wf t rfl
    have hf := w.fits
    have h' : PF.Alike t.pos (t.pos + t.bits) t.blockSize b1 o b2 o' := by
      simpa [Elem.extent, Elem.kind, Elem.areaSize] using h
    simp only [getParamText, ne_eq, not_true_eq_false, ↓reduceIte, n1, n2, ho, ho', getBitText, BitType.readBlock]
    obtain ⟨x, hx⟩ := Board.read_some h'.room1
    obtain ⟨y, hy⟩ := Board.read_some h'.room2
    rw [hx, hy]
    simp only [Out.bind]
    have : t.field (BitVec.ofNat 64 (decLE x)) = t.field (BitVec.ofNat 64 (decLE y)) := by
      apply BitVec.eq_of_getLsbD_eq
      intro i hi
      rw [BitType.field_getLsbD w, BitType.field_getLsbD w]
      by_cases hlt : i < t.bits
      · simp only [hlt, decide_true, Bool.true_and, BitVec.getLsbD_ofNat]
        rw [decLE_testBit, decLE_testBit, Board.read_bit hx, Board.read_bit hy, h'.bits (t.pos + i) (by omega) (by omega)]
      · simp [hlt]
    simp only [BitType.toText, this]

/-- After a successful set a string parameter is terminated. -/
theorem setString_terminated {rd : Reader} {ctx : Ctx} {m : Nat} {b : Board} {off base : Nat} (hb : base ≤ off)
    {text : Str} (hr : off - base + stringSize m ≤ b.length)
    (h : (setParamText rd ctx (.string m) b off base [] text).1 = .ok ()) :
    StringTerminated (setParamText rd ctx (.string m) b off base [] text).2 (off - base) m := by
  have n1 : ¬ off < base := by omega
  simp only [setParamText, ne_eq, not_true_eq_false, ↓reduceIte, n1, setString] at h ⊢
  by_cases hl : (strBytes text).length ≥ stringSize m
  · simp [if_pos hl, Out.withBoard] at h
  · simp only [if_neg hl, Board.writeString] at h ⊢
    obtain ⟨c, hc⟩ := Board.write_some (b := b) (off := off - base) (bs := strBytes text ++ [0#8]) (by
      rw [List.length_append]; simp only [List.length_cons, List.length_nil]; omega)
    simp only [hc, Out.withBoard]
    obtain ⟨bs, hbs⟩ := Board.read_some (b := c) (off := off - base) (size := stringSize m) (by
      rw [(Board.write_length hc).1]; exact hr)
    refine ⟨bs, hbs, ?_⟩
    have h1 := Board.read_getElem? hbs (strBytes text).length (by omega)
    have h2 := Board.write_getElem? hc (off - base + (strBytes text).length)
    rw [if_pos (by simp only [List.length_append, List.length_cons, List.length_nil]; omega)] at h2
    rw [h2] at h1
    simp at h1
    exact List.mem_of_getElem? h1

end PF
