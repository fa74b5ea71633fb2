import Verif.Lemmas.FixedPoint

/-!
# Fixed-point parameters (C38)
-/

namespace PF

/-- A Q5.2 parameter stored in two bytes. -/
def sampleFixed : FixedType := { size := 2, integral := 5, fractional := 2 }

theorem sampleFixed_wf : sampleFixed.WF := ⟨by decide, by decide⟩

/-- **C38** (accepted values): `setAsDouble` succeeds exactly for the real values of the declared
range and refuses the others. -/
theorem C38_accepted_iff_in_range (t : FixedType) (b : Board) (off : Nat)
    (room : off + t.size ≤ b.length) (d : Dbl) :
    (t.Real d.val → ∃ b', setDbl t b off d = .ok b') ∧ (¬ t.Real d.val → setDbl t b off d = .err) := by
  unfold setDbl FixedType.fromDbl
  constructor
  · intro h
    rw [if_pos ((t.inRange_iff d).2 h)]
    exact writeScalar_ok _ room
  · intro h
    rw [if_neg (fun hc => h ((t.inRange_iff d).1 hc))]

theorem FixedType.real_of_round (t : FixedType) (r : Int)
    (h1 : -((2 ^ (t.integral + t.fractional) : Nat) : Int) ≤ r)
    (h2 : r < ((2 ^ (t.integral + t.fractional) : Nat) : Int)) :
    t.Real ((r : Rat) / (2 ^ t.fractional : Nat)) := by
  have := (t.inRange_iff { num := r, k := t.fractional }).1 (by
    unfold FixedType.inRange
    have hM : (0 : Int) < (2 ^ t.fractional : Nat) := by exact_mod_cast Nat.two_pow_pos _
    rw [Bool.and_eq_true, decide_eq_true_eq, decide_eq_true_eq]
    dsimp only
    generalize ((2 ^ t.fractional : Nat) : Int) = M at *
    generalize ((2 ^ (t.integral + t.fractional) : Nat) : Int) = N at *
    constructor <;> nlinarith)
  exact this

/-- **C38** (reading back): after setting a value of the range, the value read is representable, at
most half a quantum (`2^-m`) away, no representable value is nearer, a representable value is read
back unchanged, and no other byte of the memory changed. -/
theorem C38_set_then_get (t : FixedType) (wf : t.WF) (b : Board) (off : Nat)
    (room : off + t.size ≤ b.length) (d : Dbl) (h : t.Real d.val) :
    ∃ b' r, setDbl t b off d = .ok b' ∧ getDbl t b' off = .ok r ∧ SameOutside b b' off t.size ∧
      t.Representable r.val ∧
      |r.val - d.val| ≤ 1 / (2 * ((2 ^ t.fractional : Nat) : Rat)) ∧
      (∀ q, t.Representable q → |r.val - d.val| ≤ |q - d.val|) ∧
      (t.Representable d.val → r.val = d.val) := by
  have hin := (t.inRange_iff d).2 h
  obtain ⟨b', hb⟩ := writeScalar_ok (size := t.size) (b := b) (off := off) (t.toBinary d) room
  have hset : setDbl t b off d = .ok b' := by
    simp [setDbl, FixedType.fromDbl, hin, hb]
  have hget : getDbl t b' off =
      .ok { num := roundDiv (d.num * (2 ^ t.fractional : Nat)) d.k, k := t.fractional } := by
    unfold getDbl
    rw [readScalar_writeScalar hb]
    simp only [Out.bind, FixedType.readDbl]
    rw [signExtend_low wf.size, signExtend_of_fits wf.size (t.toBinary_toInt wf d hin).2,
      t.toDbl_toBinary wf d hin]
  obtain ⟨hr1, hr2⟩ := t.round_range d hin
  obtain ⟨hc1, hc2⟩ := roundDiv_close (d.num * (2 ^ t.fractional : Nat)) d.k
  refine ⟨b', _, hset, hget, writeScalar_frame hb, ?_⟩
  generalize roundDiv (d.num * (2 ^ t.fractional : Nat)) d.k = r at *
  have hM : (0 : Rat) < ((2 ^ t.fractional : Nat) : Rat) := by positivity
  have hK : (0 : Rat) < ((2 ^ d.k : Nat) : Rat) := by positivity
  have c1 : 2 * (r : Rat) * ((2 ^ d.k : Nat) : Rat) ≤
      2 * ((d.num : Rat) * ((2 ^ t.fractional : Nat) : Rat)) + ((2 ^ d.k : Nat) : Rat) := by
    exact_mod_cast hc1
  have c2 : 2 * ((d.num : Rat) * ((2 ^ t.fractional : Nat) : Rat)) ≤
      2 * (r : Rat) * ((2 ^ d.k : Nat) : Rat) + ((2 ^ d.k : Nat) : Rat) := by
    exact_mod_cast hc2
  have hrep : t.Representable (Dbl.val { num := r, k := t.fractional }) :=
    ⟨t.real_of_round r hr1 hr2, r, rfl⟩
  have hclose : |Dbl.val { num := r, k := t.fractional } - d.val| ≤
      1 / (2 * ((2 ^ t.fractional : Nat) : Rat)) := by
    unfold Dbl.val
    dsimp only
    generalize ((2 ^ d.k : Nat) : Rat) = K at *
    generalize ((2 ^ t.fractional : Nat) : Rat) = M at *
    have e : (r : Rat) / M - (d.num : Rat) / K = (2 * r * K - 2 * (d.num * M)) / (2 * M * K) := by
      field_simp
    have e2 : (1 : Rat) / (2 * M) = K / (2 * M * K) := by field_simp
    rw [e, e2, abs_div, abs_of_pos (show 0 < 2 * M * K by positivity)]
    apply div_le_div_of_nonneg_right _ (by positivity)
    rw [abs_le]
    constructor <;> linarith
  have hnear : ∀ q, t.Representable q →
      |Dbl.val { num := r, k := t.fractional } - d.val| ≤ |q - d.val| := by
    rintro q ⟨_, z, rfl⟩
    by_cases hz : z = r
    · subst hz; exact le_refl _
    · -- another multiple is at least one quantum away from the one read
      have hfar : 1 / ((2 ^ t.fractional : Nat) : Rat) ≤
          |(z : Rat) / ((2 ^ t.fractional : Nat) : Rat) - Dbl.val { num := r, k := t.fractional }| := by
        unfold Dbl.val
        dsimp only
        rw [← sub_div, abs_div, abs_of_pos hM]
        apply div_le_div_of_nonneg_right _ (le_of_lt hM)
        have h1 : (1 : Int) ≤ |z - r| := Int.one_le_abs (sub_ne_zero.2 hz)
        exact_mod_cast h1
      have htri := abs_sub_le ((z : Rat) / ((2 ^ t.fractional : Nat) : Rat)) d.val
        (Dbl.val { num := r, k := t.fractional })
      have hsym := abs_sub_comm d.val (Dbl.val { num := r, k := t.fractional })
      have hhalf : (1 : Rat) / (2 * ((2 ^ t.fractional : Nat) : Rat)) =
          (1 / ((2 ^ t.fractional : Nat) : Rat)) / 2 := by field_simp
      rw [hhalf] at hclose
      linarith
  refine ⟨hrep, hclose, hnear, ?_⟩
  intro hd
  have := hnear d.val hd
  rw [sub_self, abs_zero] at this
  have h0 := abs_nonneg (Dbl.val { num := r, k := t.fractional } - d.val)
  have := abs_eq_zero.1 (le_antisymm this h0)
  linarith

example : sampleFixed.Real (Dbl.val { num := -5, k := 3 }) := by
  unfold FixedType.Real Dbl.val sampleFixed; norm_num
example : ∃ b', setDbl sampleFixed [0#8, 0#8] 0 { num := -5, k := 3 } = .ok b' ∧
    getDbl sampleFixed b' 0 = .ok { num := -3, k := 2 } := ⟨_, rfl, by decide +kernel⟩

/-- **C38** (real space texts): a text is handled as the double it stands for, hexadecimal texts are
refused, and what is read after a set is the exact decimal expansion of the value read. -/
theorem C38_real_text (rd : Reader) (t : FixedType) (wf : t.WF) (hex : Bool)
    (b : Board) (off : Nat) (text : Str) :
    (∀ d, isHexadecimal text = false → rd.dbl text = some d →
      setScalarText rd (.fixed t) ⟨false, hex⟩ b off text = setDbl t b off d) ∧
    (isHexadecimal text = true ∨ rd.dbl text = none →
      setScalarText rd (.fixed t) ⟨false, hex⟩ b off text = .err) ∧
    (∀ bs, b.read off t.size = some bs → ∃ r out, getDbl t b off = .ok r ∧
      getScalarText (.fixed t) ⟨false, hex⟩ b off = .ok out ∧ DecimalText out r.val) := by
  refine ⟨?_, ?_, ?_⟩
  · intro d hx hd
    simp [setScalarText, ScalarType.fromText, FixedType.fromText, hx, hd, setDbl, ScalarType.size]
  · intro h
    by_cases hx : isHexadecimal text = true
    · simp [setScalarText, ScalarType.fromText, FixedType.fromText, hx]
    · have hd : rd.dbl text = none := by
        rcases h with h | h
        · exact absurd h hx
        · exact h
      simp [setScalarText, ScalarType.fromText, FixedType.fromText, hx, hd]
  · intro bs hr
    refine ⟨t.readDbl (BitVec.ofNat 32 (decLE bs)),
      fixedText t.fractional (t.readDbl (BitVec.ofNat 32 (decLE bs))).num,
      by simp [getDbl, readScalar, hr, Out.bind],
      by simp [getScalarText, readScalar, ScalarType.size, hr, Out.bind, ScalarType.toText,
        FixedType.toText], ?_⟩
    exact decimalText_fixedText _ _

/-- **C38** (text round trip): when the decimal reader gives the exact value of every decimal text
whose value is a finite double, the text read after a set can be set again, and leaves the memory as
it was. -/
theorem C38_real_text_round_trip (rd : Reader)
    (hrd : ∀ text (d : Dbl), DecimalText text d.val → d.num.natAbs < 2 ^ 53 → d.k ≤ 1074 →
      ∃ d', rd.dbl text = some d' ∧ d'.val = d.val)
    (t : FixedType) (wf : t.WF) (hex : Bool) (b b' : Board) (off : Nat) (d : Dbl)
    (h : setDbl t b off d = .ok b') :
    ∃ out, getScalarText (.fixed t) ⟨false, hex⟩ b' off = .ok out ∧
      setScalarText rd (.fixed t) ⟨false, hex⟩ b' off out = .ok b' := by
  have hlen : b'.length = b.length ∧ off + t.size ≤ b.length := by
    unfold setDbl writeScalar at h
    split at h
    · simp at h
    · split at h
      · rename_i hw
        simp only [Out.ok.injEq] at h; subst h
        have := Board.write_length hw
        rw [encLE_length] at this
        exact this
      · simp at h
  have hreal : t.Real d.val := by
    by_contra hc
    rw [(C38_accepted_iff_in_range t b off hlen.2 d).2 hc] at h
    simp at h
  have hin := (t.inRange_iff d).2 hreal
  have hwr : writeScalar t.size b off (t.toBinary d) = .ok b' := by
    simpa [setDbl, FixedType.fromDbl, hin] using h
  have hread := readScalar_writeScalar hwr
  have hrv : t.readDbl (BitVec.ofNat 32 ((t.toBinary d).toNat % 2 ^ (8 * t.size))) =
      { num := roundDiv (d.num * (2 ^ t.fractional : Nat)) d.k, k := t.fractional } := by
    unfold FixedType.readDbl
    rw [signExtend_low wf.size, signExtend_of_fits wf.size (t.toBinary_toInt wf d hin).2,
      t.toDbl_toBinary wf d hin]
  obtain ⟨hr1, hr2⟩ := t.round_range d hin
  generalize hr : roundDiv (d.num * (2 ^ t.fractional : Nat)) d.k = r at *
  refine ⟨fixedText t.fractional r, ?_, ?_⟩
  · simp only [getScalarText, ScalarType.size]
    rw [hread]
    simp only [Out.bind, ScalarType.toText, FixedType.toText, Bool.false_eq_true, if_false]
    rw [hrv]
  · have hfits := wf.fits
    have hpow : 2 ^ (t.integral + t.fractional) ≤ 2 ^ 31 := by
      apply Nat.pow_le_pow_right (by decide)
      rcases wf.size with e | e | e <;> omega
    obtain ⟨d', hd', hv'⟩ := hrd (fixedText t.fractional r) { num := r, k := t.fractional }
      (decimalText_fixedText t.fractional r)
      (by dsimp only; have : (2:Nat) ^ 31 < 2 ^ 53 := by decide
          omega)
      (by dsimp only; rcases wf.size with e | e | e <;> omega)
    have hnx : isHexadecimal (fixedText t.fractional r) = false := by
      cases hxx : isHexadecimal (fixedText t.fractional r) with
      | false => rfl
      | true =>
        exfalso
        have hmem : 'x' ∈ fixedText t.fractional r ∨ 'X' ∈ fixedText t.fractional r := by
          unfold isHexadecimal at hxx
          rw [Bool.or_eq_true, decide_eq_true_eq, decide_eq_true_eq] at hxx
          rcases hxx with e | e
          · left; exact List.mem_of_mem_take (i := 2) (by rw [e]; simp)
          · right; exact List.mem_of_mem_take (i := 2) (by rw [e]; simp)
        have hnum : ∀ {u n}, Numeral 10 u n → 'x' ∉ u ∧ 'X' ∉ u := by
          intro u n hu
          have key : ∀ p ∈ digitTable, p.1 ≠ 'x' ∧ p.1 ≠ 'X' := by decide
          constructor
          · intro hc; obtain ⟨dd, hdd⟩ := hu.chars.2 _ hc; exact (key _ hdd.2).1 rfl
          · intro hc; obtain ⟨dd, hdd⟩ := hu.chars.2 _ hc; exact (key _ hdd.2).2 rfl
        have hdt := decimalText_fixedText t.fractional r
        revert hmem
        generalize fixedText t.fractional r = txt at hdt
        generalize (r : Rat) / ((2 ^ t.fractional : Nat) : Rat) = val at hdt
        intro hmem
        cases hdt with
        | int h1 => rcases hmem with h | h; exact (hnum h1).1 h; exact (hnum h1).2 h
        | negInt h1 =>
          rcases hmem with h | h
          · simp at h; exact (hnum h1).1 h
          · simp at h; exact (hnum h1).2 h
        | frac h1 h2 =>
          rcases hmem with h | h
          · simp at h; rcases h with h | h; exact (hnum h1).1 h; exact (hnum h2).1 h
          · simp at h; rcases h with h | h; exact (hnum h1).2 h; exact (hnum h2).2 h
        | negFrac h1 h2 =>
          rcases hmem with h | h
          · simp at h; rcases h with h | h; exact (hnum h1).1 h; exact (hnum h2).1 h
          · simp at h; rcases h with h | h; exact (hnum h1).2 h; exact (hnum h2).2 h
    rw [(C38_real_text rd t wf hex b' off _).1 d' hnx hd']
    have hreal' : t.Real d'.val := by rw [hv']; exact t.real_of_round r hr1 hr2
    have hin' := (t.inRange_iff d').2 hreal'
    -- both round to the same number
    have hrr : roundDiv (d'.num * (2 ^ t.fractional : Nat)) d'.k = r := by
      obtain ⟨c1, c2⟩ := roundDiv_close (d'.num * (2 ^ t.fractional : Nat)) d'.k
      generalize roundDiv (d'.num * (2 ^ t.fractional : Nat)) d'.k = r' at *
      have hM : ((2 ^ t.fractional : Nat) : Rat) ≠ 0 := by positivity
      have hK : ((2 ^ d'.k : Nat) : Rat) ≠ 0 := by positivity
      unfold Dbl.val at hv'
      dsimp only at hv'
      rw [div_eq_div_iff hK hM] at hv'
      have hv'' : d'.num * ((2 ^ t.fractional : Nat) : Int) = r * ((2 ^ d'.k : Nat) : Int) := by
        exact_mod_cast hv'
      rw [hv''] at c1 c2
      have hKp : (0 : Int) < ((2 ^ d'.k : Nat) : Int) := by exact_mod_cast Nat.two_pow_pos _
      generalize ((2 ^ d'.k : Nat) : Int) = K at *
      by_contra hne
      rcases Int.lt_or_gt_of_ne hne with hlt | hgt
      · nlinarith
      · nlinarith
    have hbin : t.toBinary d' = t.toBinary d := by
      unfold FixedType.toBinary
      rw [hrr, hr]
    unfold setDbl FixedType.fromDbl
    rw [if_pos hin', hbin]
    exact writeScalar_twice hwr

/-- **C38** (raw space texts): in raw space the parameter behaves as the signed integer of its size:
accepted iff the text denotes such an integer, and the text read denotes the integer in memory. -/
theorem C38_raw_text (rd : Reader) (t : FixedType) (wf : t.WF) (hex : Bool)
    (b : Board) (off : Nat) (room : off + t.size ≤ b.length) (text : Str) :
    (∀ n, Denotes true (8 * t.size) text n → FitsSigned t.size n →
      ∃ b' bs, setScalarText rd (.fixed t) ⟨true, hex⟩ b off text = .ok b' ∧
        SameOutside b b' off t.size ∧ b'.read off t.size = some bs ∧ memValue true bs = n) ∧
    ((¬ ∃ n, Denotes true (8 * t.size) text n ∧ FitsSigned t.size n) →
      setScalarText rd (.fixed t) ⟨true, hex⟩ b off text = .err) ∧
    (∀ bs, b.read off t.size = some bs → ∃ out,
      getScalarText (.fixed t) ⟨true, hex⟩ b off = .ok out ∧
      Denotes true (8 * t.size) out (memValue true bs)) := by
  have hwf := t.rawInt_wf wf
  have hfit : ∀ n, FitsSigned t.size n ↔ t.rawInt.min ≤ n ∧ n ≤ t.rawInt.max := by
    intro n; simp only [FitsSigned, FixedType.rawInt]; omega
  refine ⟨?_, ?_, ?_⟩
  · intro n hd hf
    have hft := (t.rawInt.fromText_iff hwf text (BitVec.ofInt 32 n)).2
      ⟨n, hd, ((hfit n).1 hf).1, ((hfit n).1 hf).2, rfl⟩
    rw [← t.fromText_raw wf rd hex] at hft
    obtain ⟨b', hb⟩ := writeScalar_ok (size := t.size) (BitVec.ofInt 32 n) room
    refine ⟨b', encLE t.size (BitVec.ofInt 32 n).toNat,
      by simp [setScalarText, ScalarType.fromText, hft, ScalarType.size, hb], writeScalar_frame hb, ?_,
      memValue_encLE t.rawInt hwf ((hfit n).1 hf).1 ((hfit n).1 hf).2⟩
    unfold writeScalar at hb
    split at hb
    · rename_i hw
      simp only [Out.ok.injEq] at hb; subst hb
      have := Board.read_write_same hw
      rwa [encLE_length] at this
    · simp at hb
  · intro hno
    have : t.fromText rd ⟨true, hex⟩ text = none := by
      rw [t.fromText_raw wf]
      cases hf : t.rawInt.fromText text with
      | none => rfl
      | some v =>
        obtain ⟨n, h1, h2, h3, _⟩ := (t.rawInt.fromText_iff hwf text v).1 hf
        exact absurd ⟨n, h1, (hfit n).2 ⟨h2, h3⟩⟩ hno
    simp [setScalarText, ScalarType.fromText, this]
  · intro bs hr
    refine ⟨_, by simp [getScalarText, readScalar, ScalarType.size, hr, Out.bind, ScalarType.toText]; rfl, ?_⟩
    rw [t.toText_raw]
    exact t.rawInt.toText_denotes hwf _ bs (Board.read_length hr).1

/-- **C38**: the assertions of the conversions hold (no abort in debug builds): what is written passes
the signed check, what is read passes the unsigned check. -/
theorem C38_assertions_hold (rd : Reader) (t : FixedType) (wf : t.WF) :
    (∀ ctx text v, t.fromText rd ctx text = some v → isEncodable t.size v true = true) ∧
    (∀ d v, t.fromDbl d = some v → isEncodable t.size v true = true) ∧
    (∀ b off v, readScalar t.size b off = .ok v → isEncodable t.size v false = true) := by
  have hdbl : ∀ d v, t.fromDbl d = some v → isEncodable t.size v true = true := by
    intro d v h
    unfold FixedType.fromDbl at h
    split at h
    · rename_i hin
      simp only [Option.some.injEq] at h; subst h
      exact (isEncodable_signed wf.size _).2 (t.toBinary_toInt wf d hin).2
    · simp at h
  refine ⟨?_, hdbl, ?_⟩
  · rintro ⟨raw, hex⟩ text v h
    cases raw with
    | true =>
      rw [t.fromText_raw wf] at h
      obtain ⟨n, h1, h2, h3, rfl⟩ := (t.rawInt.fromText_iff (t.rawInt_wf wf) text v).1 h
      rw [isEncodable_signed wf.size]
      have hf : FitsSigned t.size n := by
        simp only [FitsSigned, FixedType.rawInt] at h2 h3 ⊢; omega
      rw [BitVec.toInt_ofInt]
      have h4 : Int.bmod n (2 ^ 32) = n := by
        apply bmod_of_fits (size := 4) (by decide)
        unfold FitsSigned at hf ⊢
        clear h h1 h2 h3
        rcases wf.size with e | e | e <;> rw [e] at hf <;> norm_num at hf ⊢ <;> omega
      rw [h4]; exact hf
    | false =>
      unfold FixedType.fromText at h
      simp only [Bool.not_false, Bool.and_true, Bool.false_eq_true, if_false] at h
      split at h
      · simp at h
      · split at h
        · simp at h
        · exact hdbl _ _ h
  · intro b off v h
    unfold readScalar at h
    split at h
    · rename_i bs hr
      simp only [Out.ok.injEq] at h; subst h
      rw [isEncodable_unsigned wf.size, BitVec.toNat_ofNat]
      have hlt := decLE_lt bs
      rw [(Board.read_length hr).1, pow256] at hlt
      exact Nat.lt_of_le_of_lt (Nat.mod_le _ _) hlt
    · simp at h

end PF
