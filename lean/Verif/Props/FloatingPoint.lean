import Verif.Lemmas.FloatingPoint
import Verif.Lemmas.HandleTyped
import Verif.Lemmas.Access

/-!
# Floating-point parameters (C69, C70)
-/

namespace PF
open Spec

/-- A floating-point parameter with the range [-1, 1]. -/
def sampleFloat : FloatType := ⟨0xbf800000#32, 0x3f800000#32⟩

theorem f32Val_one : f32Val 0x3f800000#32 = 1 := by unfold f32Val; norm_num
theorem f32Val_minus_one : f32Val 0xbf800000#32 = -1 := by unfold f32Val; norm_num

theorem sampleFloat_wf : FloatWF sampleFloat :=
  ⟨by decide, by decide, by unfold sampleFloat; rw [f32Val_one, f32Val_minus_one]; norm_num⟩

/-- The bytes of the number. -/
theorem float_write {b : Board} {off : Nat} (v : BitVec 32) (room : off + 4 ≤ b.length) :
    ∃ b' bs, writeScalar 4 b off v = .ok b' ∧ SameOutside b b' off 4 ∧ b'.read off 4 = some bs ∧ f32Mem bs = v := by
  obtain ⟨b', hb⟩ := writeScalar_ok (size := 4) (off := off) v room
  have hb2 := hb
  unfold writeScalar at hb2
  split at hb2
  · rename_i b'' hw
    simp only [Out.ok.injEq] at hb2
    subst hb2
    have := Board.read_write_same hw
    rw [encLE_length] at this
    refine ⟨b'', _, hb, writeScalar_frame hb, this, ?_⟩
    unfold f32Mem
    rw [decLE_encLE, Nat.mod_eq_of_lt (show v.toNat < 256 ^ 4 from v.isLt), BitVec.ofNat_toNat, BitVec.setWidth_eq]
  · simp at hb2

theorem setScalar_ok {rd : Reader} {t : ScalarType} {a : Atom} {v : BitVec 32} {b b' : Board} {off : Nat}
    (hv : t.ofAtom rd a = some v) (hw : writeScalar t.size b off v = .ok b') :
    setParamVal rd (.scalar t) b off (.one a) = (.ok (), b') := by
  simp only [setParamVal, setParamAtom, hv, hw, Out.withBoard]

theorem setScalar_err {rd : Reader} {t : ScalarType} {a : Atom} {b : Board} {off : Nat}
    (hv : t.ofAtom rd a = none) : setParamVal rd (.scalar t) b off (.one a) = (.err, b) := by
  simp only [setParamVal, setParamAtom, hv]

theorem ofAtom_float (rd : Reader) (t : FloatType) (d : Dbl) : ScalarType.ofAtom rd (.float t) (.dbl d) = t.fromDbl d := rfl

theorem setFloat_ok {rd : Reader} {t : FloatType} {d : Dbl} {v : BitVec 32} {b b' : Board} {off : Nat}
    (hv : t.fromDbl d = some v) (hw : writeScalar 4 b off v = .ok b') :
    setParamVal rd (.scalar (.float t)) b off (.one (.dbl d)) = (.ok (), b') :=
  setScalar_ok ((ofAtom_float rd t d).trans hv) hw

theorem setFloat_err {rd : Reader} {t : FloatType} {d : Dbl} {b : Board} {off : Nat}
    (hv : t.fromDbl d = none) :
    setParamVal rd (.scalar (.float t)) b off (.one (.dbl d)) = (.err, b) :=
  setScalar_err ((ofAtom_float rd t d).trans hv)

theorem getFloat_ok {t : FloatType} {v : BitVec 32} {b : Board} {off : Nat} (hr : readScalar 4 b off = .ok v)
    (hf : f32Finite v = true) : getParamAtom (.scalar (.float t)) b off .dbl = .ok (.dbl (f32ToDbl v)) := by
  simp only [getParamAtom, ScalarType.size, hr, Out.bind, ScalarType.toAtom]
  rw [if_pos hf]

theorem readFloat {b : Board} {off : Nat} {bs : List Byte} (hr : b.read off 4 = some bs) :
    readScalar 4 b off = .ok (f32Mem bs) := by
  simp only [readScalar, hr]; rfl

/-- **C69** (raw texts).  In raw value space a text is accepted exactly when it stands for a 32-bit number that is
the bit pattern of a finite number of the declared range; the memory then has these bits, and no other byte
changes.  Otherwise the set fails. -/
theorem C69_raw_text (rd : Reader) (t : FloatType) (hex : Bool) (b : Board) (off : Nat) (room : off + 4 ≤ b.length)
    (text : Str) :
    (∀ v, Denotes false 32 text v.toNat → FloatAllows t v →
      ∃ b' bs, setScalarText rd (.float t) ⟨true, hex⟩ b off text = .ok b' ∧ SameOutside b b' off 4 ∧
        b'.read off 4 = some bs ∧ f32Mem bs = v) ∧
    ((∀ v, Denotes false 32 text v.toNat → ¬ FloatAllows t v) →
      setScalarText rd (.float t) ⟨true, hex⟩ b off text = .err) := by
  unfold setScalarText
  simp only [ScalarType.fromText, ScalarType.size]
  constructor
  · intro v h1 h2
    rw [(t.fromText_raw rd hex text v).2 ⟨h1, h2⟩]
    exact float_write v room
  · intro h
    cases hf : t.fromText rd ⟨true, hex⟩ text with
    | none => rfl
    | some v => exact absurd ((t.fromText_raw rd hex text v).1 hf).2 (h v ((t.fromText_raw rd hex text v).1 hf).1)

/-- 0.5 is accepted by its bit pattern; an infinity and 2 are refused. -/
example :
    Denotes false 32 (s "0x3f000000") (0x3f000000#32 : BitVec 32).toNat ∧ FloatAllows sampleFloat 0x3f000000#32 ∧
    setScalarText .none (.float sampleFloat) ⟨true, false⟩ [0, 0, 0, 0] 0 (s "0x3f000000") = .ok [0, 0, 0, 0x3f] ∧
    setScalarText .none (.float sampleFloat) ⟨true, false⟩ [0, 0, 0, 0] 0 (s "0x7f800000") = .err ∧
    setScalarText .none (.float sampleFloat) ⟨true, false⟩ [0, 0, 0, 0] 0 (s "1073741824") = .err := by
  have h := (sampleFloat.fromText_raw .none false (s "0x3f000000") 0x3f000000#32).1 (by decide +kernel)
  exact ⟨h.1, h.2, by decide +kernel, by decide +kernel, by decide +kernel⟩

/-- **C69** (real texts).  In real value space a text is accepted exactly when the stream library reads it as a
number of the declared range and it is not hexadecimal; the memory then has the bits of that number. -/
theorem C69_real_text (rd : Reader) (t : FloatType) (hex : Bool) (b : Board) (off : Nat) (room : off + 4 ≤ b.length)
    (text : Str) :
    (∀ v, (∀ ds, text ≠ '0' :: 'x' :: ds ∧ text ≠ '0' :: 'X' :: ds) → rd.flt text = some v → FloatAllows t v →
      ∃ b' bs, setScalarText rd (.float t) ⟨false, hex⟩ b off text = .ok b' ∧ SameOutside b b' off 4 ∧
        b'.read off 4 = some bs ∧ f32Mem bs = v) ∧
    (((∃ ds, text = '0' :: 'x' :: ds ∨ text = '0' :: 'X' :: ds) ∨ ∀ v, rd.flt text = some v → ¬ FloatAllows t v) →
      setScalarText rd (.float t) ⟨false, hex⟩ b off text = .err) := by
  unfold setScalarText
  simp only [ScalarType.fromText, ScalarType.size]
  constructor
  · intro v h1 h2 h3
    rw [(t.fromText_real rd hex text v).2 ⟨(isHexadecimal_false text).2 h1, h2, h3⟩]
    exact float_write v room
  · intro h
    cases hf : t.fromText rd ⟨false, hex⟩ text with
    | none => rfl
    | some v =>
      obtain ⟨h1, h2, h3⟩ := (t.fromText_real rd hex text v).1 hf
      rcases h with ⟨ds, h⟩ | h
      · have := (isHexadecimal_false text).1 h1 ds
        exact absurd h (not_or.2 this)
      · exact absurd h3 (h v h2)

/-- With a reader that reads `0.5` and `2`: the first is accepted, the second refused. -/
example :
    let rd : Reader := ⟨fun _ => none, fun t => if t = s "0.5" then some 0x3f000000#32 else
      if t = s "2" then some 0x40000000#32 else none⟩
    setScalarText rd (.float sampleFloat) ⟨false, false⟩ [0, 0, 0, 0] 0 (s "0.5") = .ok [0, 0, 0, 0x3f] ∧
    setScalarText rd (.float sampleFloat) ⟨false, false⟩ [0, 0, 0, 0] 0 (s "2") = .err ∧
    setScalarText rd (.float sampleFloat) ⟨false, false⟩ [0, 0, 0, 0] 0 (s "0x3f000000") = .err := by decide +kernel

/-- **C69** (double access).  A finite double is accepted exactly when it is at most the largest single-precision number
in magnitude and the single-precision number nearest to it, ties to even, is in the declared range.  The memory
then has that number, a get gives it exactly, and no other byte changes. -/
theorem C69_double (rd : Reader) (t : FloatType) (b : Board) (off : Nat) (room : off + 4 ≤ b.length) (d : Dbl) :
    (∀ v, |d.val| ≤ f32Max → Nearest d.val v → FloatAllows t v →
      ∃ b' bs r, setParamVal rd (.scalar (.float t)) b off (.one (.dbl d)) = (.ok (), b') ∧ SameOutside b b' off 4 ∧
        b'.read off 4 = some bs ∧ Nearest d.val (f32Mem bs) ∧ f32Val (f32Mem bs) = f32Val v ∧
        getParamAtom (.scalar (.float t)) b' off .dbl = .ok (.dbl r) ∧ r.val = f32Val v) ∧
    ((f32Max < |d.val| ∨ ∀ v, Nearest d.val v → ¬ FloatAllows t v) →
      setParamVal rd (.scalar (.float t)) b off (.one (.dbl d)) = (.err, b)) := by
  constructor
  · intro v h1 h2 h3
    have hn := f32OfDbl_nearest (d.le_f32Max.1 h1)
    have he := hn.val_unique h2
    have hv := (t.fromDbl_iff d (f32OfDbl d)).2 ⟨h1, h3.congr hn.finite he, rfl⟩
    obtain ⟨b', bs, hw, hs, hr, hm⟩ := float_write (f32OfDbl d) room
    refine ⟨b', bs, f32ToDbl (f32OfDbl d), ?_, hs, hr, by rw [hm]; exact hn, by rw [hm]; exact he, ?_,
      by rw [f32ToDbl_val, he]⟩
    · exact setFloat_ok hv hw
    · exact getFloat_ok (by rw [readFloat hr, hm]) ((f32Finite_iff _).2 hn.finite)
  · intro h
    have : t.fromDbl d = none := by
      rw [t.fromDbl_none d]
      rintro ⟨h1, v, h2, h3⟩
      rcases h with h | h
      · exact absurd h1 (not_le.2 h)
      · exact h v h2 h3
    exact setFloat_err this

/-- 0.1, as a double, becomes the single-precision number nearest to it; the number read is that one, not 0.1. -/
example : f32OfDbl ⟨3602879701896397, 55⟩ = 0x3dcccccd#32 ∧
    setParamVal .none (.scalar (.float sampleFloat)) [0, 0, 0, 0] 0 (.one (.dbl ⟨3602879701896397, 55⟩)) =
      (.ok (), [0xcd, 0xcc, 0xcc, 0x3d]) ∧
    (f32ToDbl 0x3dcccccd#32).val ≠ Dbl.val ⟨3602879701896397, 55⟩ := by
  refine ⟨by decide +kernel, by decide +kernel, ?_⟩
  rw [f32ToDbl_val]
  unfold f32Val Dbl.val
  norm_num

/-- Infinities and NaNs are never accepted. -/
theorem C69_special (rd : Reader) (t : FloatType) (b : Board) (off : Nat) (v : BitVec 32) :
    setParamVal rd (.scalar (.float t)) b off (.one (.special v)) = (.err, b) := rfl

/-- **C69** (reading back).  A number that a get gives can be set again, and a set of it leaves the memory as it was,
unless it is the negative zero, whose sign this model of doubles does not have. -/
theorem C69_get_then_set (rd : Reader) (t : FloatType) (b : Board) (off : Nat) (bs : List Byte)
    (hr : b.read off 4 = some bs) (ha : FloatAllows t (f32Mem bs)) (hz : f32Mem bs ≠ 0x80000000#32) :
    ∃ r, getParamAtom (.scalar (.float t)) b off .dbl = .ok (.dbl r) ∧ r.val = f32Val (f32Mem bs) ∧
      setParamVal rd (.scalar (.float t)) b off (.one (.dbl r)) = (.ok (), b) := by
  have hf := (f32Finite_iff _).2 ha.1
  refine ⟨f32ToDbl (f32Mem bs), ?_, f32ToDbl_val _, ?_⟩
  · exact getFloat_ok (readFloat hr) hf
  · have e : f32OfDbl (f32ToDbl (f32Mem bs)) = f32Mem bs := by
      apply f32OfDbl_toDbl
      by_cases h0 : f32Mag (f32Mem bs) = 0
      · right
        by_contra hm
        apply hz
        have hu : f32Units (f32Mem bs) = f32Units 0x80000000#32 := by
          have h1 := f32Units_natAbs (f32Mem bs)
          rw [h0] at h1
          rw [show f32Units 0x80000000#32 = 0 by decide +kernel]
          omega
        exact f32_eq_of_units (by rw [show (0x80000000#32 : BitVec 32).msb = true by decide]; simpa using hm) hu
      · exact .inl h0
    have hv := (t.fromDbl_iff (f32ToDbl (f32Mem bs)) (f32Mem bs)).2
      ⟨by rw [f32ToDbl_val]; exact f32Val_abs_le ha.1, ha, e.symm⟩
    have hl := (Board.read_length hr).1
    have hw : writeScalar 4 b off (f32Mem bs) = .ok b := by
      unfold writeScalar
      have : encLE 4 (f32Mem bs).toNat = bs := by
        unfold f32Mem
        have hlt := decLE_lt bs
        rw [hl] at hlt
        rw [BitVec.toNat_ofNat, Nat.mod_eq_of_lt hlt, ← hl, encLE_decLE]
      rw [this, Board.write_read_same hr]
    exact setFloat_ok hv hw

example : Board.read [0xcd, 0xcc, 0xcc, 0x3d] 0 4 = some [0xcd, 0xcc, 0xcc, 0x3d] ∧
    FloatAllows sampleFloat (f32Mem [0xcd, 0xcc, 0xcc, 0x3d]) :=
  ⟨by decide, (sampleFloat.inRange_iff _).1 (by decide +kernel)⟩

/-- **C69** (texts read).  In real value space the text of a finite number denotes the number rounded to six
significant digits; in raw value space it is the bit pattern, in decimal or as `FloatHex` says. -/
theorem C69_text_read (t : FloatType) (raw hex : Bool) (b : Board) (off : Nat) (bs : List Byte)
    (hr : b.read off 4 = some bs) :
    ∃ out, getScalarText (.float t) ⟨raw, hex⟩ b off = .ok out ∧
      (raw = false → F32Finite (f32Mem bs) → ∃ q, RealText out q ∧ SixDigits (f32Val (f32Mem bs)) q) ∧
      (raw = true → hex = false → Numeral 10 out (decLE bs)) ∧
      (raw = true → hex = true → FloatHex (decLE bs) out) := by
  have hl := (Board.read_length hr).1
  have hn := toNat_decLE (.inr (.inr rfl)) hl
  refine ⟨t.toText ⟨raw, hex⟩ (f32Mem bs), ?_, ?_, ?_, ?_⟩
  · simp only [getScalarText, ScalarType.size, readScalar, hr, Out.bind, ScalarType.toText]; rfl
  · rintro rfl hf
    unfold FloatType.toText
    rw [if_neg (by simp)]
    exact f32Text_real ((f32Finite_iff _).2 hf)
  · rintro rfl rfl
    unfold FloatType.toText
    rw [if_pos rfl, if_neg (by simp), show (f32Mem bs).toNat = decLE bs from hn]
    exact numeral_natText _
  · rintro rfl rfl
    unfold FloatType.toText
    rw [if_pos rfl, if_pos rfl, show (f32Mem bs).toNat = decLE bs from hn]
    exact showbaseHex_spec _

example :
    getScalarText (.float sampleFloat) ⟨false, false⟩ [0xcd, 0xcc, 0xcc, 0x3d] 0 = .ok (s "0.1") ∧
    getScalarText (.float sampleFloat) ⟨true, false⟩ [0xcd, 0xcc, 0xcc, 0x3d] 0 = .ok (s "1036831949") ∧
    getScalarText (.float sampleFloat) ⟨true, true⟩ [0xcd, 0xcc, 0xcc, 0x3d] 0 = .ok (s "0x3dcccccd") := by decide +kernel

/-- **C70** (raw texts).  The raw text of a number of the range can be set again and leaves the memory as it
was; in hexadecimal this needs the number to be zero or its bit pattern at least 2²⁰. -/
theorem C70_raw_round_trip_partial (rd : Reader) (t : FloatType) (hex hex' : Bool) (b : Board) (off : Nat) (bs : List Byte)
    (hr : b.read off 4 = some bs) (ha : FloatAllows t (f32Mem bs))
    (hx : hex = true → decLE bs = 0 ∨ 2 ^ 20 ≤ decLE bs) :
    ∃ out, getScalarText (.float t) ⟨true, hex⟩ b off = .ok out ∧
      setScalarText rd (.float t) ⟨true, hex'⟩ b off out = .ok b := by
  obtain ⟨out, h1, -, h2, h3⟩ := C69_text_read t true hex b off bs hr
  have hl := (Board.read_length hr).1
  have hn := toNat_decLE (.inr (.inr rfl)) hl
  have hlt := decLE_lt bs
  rw [hl] at hlt
  refine ⟨out, h1, ?_⟩
  have hd : Denotes false 32 out (f32Mem bs).toNat := by
    rw [show (f32Mem bs).toNat = decLE bs from hn]
    cases hex with
    | false => exact .dec (h2 rfl rfl)
    | true => exact (h3 rfl rfl).denotes (by omega) (hx rfl)
  have hv := (t.fromText_raw rd hex' out _).2 ⟨hd, ha⟩
  unfold setScalarText
  simp only [ScalarType.fromText, ScalarType.size, hv]
  unfold writeScalar
  have : encLE 4 (f32Mem bs).toNat = bs := by
    rw [show (f32Mem bs).toNat = decLE bs from hn, ← hl, encLE_decLE]
  rw [this, Board.write_read_same hr]

/-- The condition is needed: the smallest positive number has the text `000000x1`, which is refused; that of
zero has no prefix. -/
theorem C70_hex_text_of_small_numbers :
    getScalarText (.float sampleFloat) ⟨true, true⟩ [1, 0, 0, 0] 0 = .ok (s "000000x1") ∧
    (∀ rd hex, setScalarText rd (.float sampleFloat) ⟨true, hex⟩ [1, 0, 0, 0] 0 (s "000000x1") = .err) ∧
    FloatAllows sampleFloat (f32Mem [1, 0, 0, 0]) ∧
    getScalarText (.float sampleFloat) ⟨true, true⟩ [0, 0, 0, 0] 0 = .ok (s "00000000") := by
  refine ⟨by decide +kernel, fun rd hex => ?_, (sampleFloat.inRange_iff _).1 (by decide +kernel), by decide +kernel⟩
  unfold setScalarText
  simp only [ScalarType.fromText, FloatType.fromText, Bool.not_true, Bool.and_false, Bool.false_eq_true, if_false, if_true]
  rw [show convertTo false 32 (s "000000x1") = none by decide +kernel]

/-- **C70** (real texts).  When the stream library rounds the decimal texts to the nearest number, the real
text of a number of the range can be set again and leaves the memory as it was, if the number is the one nearest
to its six significant digits. -/
theorem C70_real_round_trip_partial (rd : Reader) (hrd : ReadsDecimals rd) (t : FloatType) (hex hex' : Bool) (b : Board)
    (off : Nat) (bs : List Byte) (hr : b.read off 4 = some bs) (ha : FloatAllows t (f32Mem bs))
    (h6 : ∀ q, SixDigits (f32Val (f32Mem bs)) q → |q| ≤ f32Max ∧ Nearest q (f32Mem bs)) :
    ∃ out, getScalarText (.float t) ⟨false, hex⟩ b off = .ok out ∧
      setScalarText rd (.float t) ⟨false, hex'⟩ b off out = .ok b := by
  have hl := (Board.read_length hr).1
  obtain ⟨q, hq1, hq2⟩ := f32Text_real ((f32Finite_iff _).2 ha.1)
  obtain ⟨h4, h5⟩ := h6 q hq2
  obtain ⟨v, hv1, hv2, hv3⟩ := hrd.flt _ q hq1 h4
  have e : v = f32Mem bs := by
    refine hv2.unique h5 ?_
    rw [Bool.eq_iff_iff]; exact hv3.trans (f32Text_head _)
  subst e
  refine ⟨f32Text (f32Mem bs), ?_, ?_⟩
  · simp only [getScalarText, ScalarType.size, readScalar, hr, Out.bind, ScalarType.toText, FloatType.toText]
    rw [if_neg (by simp)]; rfl
  · have hv := (t.fromText_real rd hex' _ _).2 ⟨hq1.not_hex, hv1, ha⟩
    unfold setScalarText
    simp only [ScalarType.fromText, ScalarType.size, hv]
    unfold writeScalar
    have : encLE 4 (f32Mem bs).toNat = bs := by
      unfold f32Mem
      have hlt := decLE_lt bs
      rw [hl] at hlt
      rw [BitVec.toNat_ofNat, Nat.mod_eq_of_lt hlt, ← hl, encLE_decLE]
    rw [this, Board.write_read_same hr]

/-- 0.1 meets the condition of `C70_real_round_trip_partial` for the digits that the library prints. -/
example : f32Text 0x3dcccccd#32 = s "0.1" ∧ f32Round 1 10 false = 0x3dcccccd#32 := by decide +kernel

/-- The condition is needed: a parameter can hold its declared maximum and show a text that is above it, which a set
refuses, however well the stream library rounds. -/
theorem C70_text_above_max :
    let t : FloatType := ⟨0#32, 0x3dfcd6ea#32⟩
    let b : Board := [0xea, 0xd6, 0xfc, 0x3d]
    FloatWF t ∧ FloatAllows t (f32Mem b) ∧ getScalarText (.float t) ⟨false, false⟩ b 0 = .ok (s "0.123457") ∧
    ∀ rd, ReadsDecimals rd → setScalarText rd (.float t) ⟨false, false⟩ b 0 (s "0.123457") = .err := by
  refine ⟨⟨by decide, by decide, ?_⟩, (FloatType.inRange_iff _ _).1 (by decide +kernel), by decide +kernel, ?_⟩
  · exact (f32Val_le _ _).2 (by decide +kernel)
  · intro rd hrd
    have hq : RealText (s "0.123457") (((0 : Nat) : Rat) + ((123457 : Nat) : Rat) / (10 ^ (s "123457").length : Nat)) :=
      .plain (.frac (t := s "0") (u := s "123457") (numeral_of_digits (by decide) (by decide))
        (numeral_of_digits (by decide) (by decide)))
    have hq2 : ((0 : Nat) : Rat) + ((123457 : Nat) : Rat) / (10 ^ (s "123457").length : Nat) = ((123457 : Int) : Rat) / (1000000 : Nat) := by
      rw [show (s "123457").length = 6 by decide]; norm_num
    rw [hq2] at hq
    obtain ⟨v, h1, h2, h3⟩ := hrd.flt _ _ hq ((abs_le_f32Max _ (by decide)).2 (by decide +kernel))
    have hn := f32Round_nearest (num := 123457) (b := 1000000) (neg := false) (by decide) (by decide +kernel) (by simp)
    have hv : v = f32Round 123457 1000000 false := by
      refine h2.unique hn ?_
      rw [show (f32Round 123457 1000000 false).msb = false by decide +kernel, ← Bool.not_eq_true, h3]
      decide
    have he : f32Round 123457 1000000 false = 0x3dfcd706#32 := by decide +kernel
    rw [he] at hv
    subst hv
    refine (C69_real_text rd _ false _ 0 (by decide) _).2 (.inr fun w hw => ?_)
    rw [h1] at hw
    cases hw
    rw [← FloatType.inRange_iff]
    decide +kernel

/-- The range check is on the rounded number: a double above the declared maximum is accepted when it rounds to the
maximum. -/
theorem C69_double_above_max :
    sampleFloat.max = 0x3f800000#32 ∧ f32Val 0x3f800000#32 < Dbl.val ⟨1073741825, 30⟩ ∧
    setParamVal .none (.scalar (.float sampleFloat)) [0, 0, 0, 0] 0 (.one (.dbl ⟨1073741825, 30⟩)) =
      (.ok (), [0, 0, 0x80, 0x3f]) := by
  refine ⟨rfl, ?_, by decide +kernel⟩
  rw [f32Val_one]
  unfold Dbl.val
  norm_num

/-- The initial value is zero also when the declared range does not have zero. -/
theorem C69_default_out_of_range :
    let t : FloatType := ⟨0x3f800000#32, 0x40000000#32⟩
    FloatWF t ∧ (ScalarType.float t).default = 0#32 ∧ ¬ FloatAllows t 0#32 := by
  refine ⟨⟨by decide, by decide, (f32Val_le _ _).2 (by decide +kernel)⟩, rfl, ?_⟩
  rw [← FloatType.inRange_iff]
  decide +kernel

end PF
