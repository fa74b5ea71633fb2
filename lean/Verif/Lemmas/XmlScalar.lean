import Verif.Props.Integer
import Verif.Props.Enum
import Verif.Props.FixedPoint
import Verif.Props.Bits
import Verif.Props.StringArray
import Verif.Spec.XmlSettings
import Verif.Lemmas.FloatingPoint

/-! Helper lemmas: the text of a value, set anywhere else, gives that value. -/

namespace PF

/-- A text without the delimiters of arrays. -/
def Separable (w : Str) : Prop :=
  w ≠ [] ∧ ∀ c ∈ w, c ∉ [' ', '\n', '\r', '\t', Char.ofNat 11, Char.ofNat 12, ',']

theorem Numeral.separable {base : Nat} {u : Str} {k : Nat} (h : Numeral base u k) : Separable u := by
  refine ⟨h.chars.1, fun c hc => ?_⟩
  have key : ∀ p ∈ digitTable, p.1 ∉ [' ', '\n', '\r', '\t', Char.ofNat 11, Char.ofNat 12, ','] := by decide
  obtain ⟨d, hd⟩ := h.chars.2 c hc
  exact key _ hd.2

theorem Separable.cons {w : Str} {c : Char} (h : ∀ c ∈ w, c ∉ [' ', '\n', '\r', '\t', Char.ofNat 11, Char.ofNat 12, ','])
    (hc : c ∉ [' ', '\n', '\r', '\t', Char.ofNat 11, Char.ofNat 12, ',']) : Separable (c :: w) :=
  ⟨by simp, by rw [List.forall_mem_cons]; exact ⟨hc, h⟩⟩

theorem PlainInt.separable {u : Str} {k : Int} (h : PlainInt u k) : Separable u := by
  cases h with
  | dec h => exact h.separable
  | plus h => exact .cons h.separable.2 (by decide)
  | minus h => exact .cons h.separable.2 (by decide)
  | hex h => exact .cons (Separable.cons h.separable.2 (by decide)).2 (by decide)

theorem Denotes.separable {sg : Bool} {bits : Nat} {u : Str} {k : Int} (h : Denotes sg bits u k) : Separable u := by
  cases h with
  | dec h => exact h.separable
  | plus h => exact .cons h.separable.2 (by decide)
  | minus _ h => exact .cons h.separable.2 (by decide)
  | hexUnsigned _ h => exact .cons (Separable.cons h.separable.2 (by decide)).2 (by decide)
  | hexPositive _ h _ => exact .cons (Separable.cons h.separable.2 (by decide)).2 (by decide)
  | hexNegative _ h _ _ => exact .cons (Separable.cons h.separable.2 (by decide)).2 (by decide)

theorem DecimalText.separable {u : Str} {k : Rat} (h : DecimalText u k) : Separable u := by
  have frac : ∀ {t u : Str} {n m : Nat}, Numeral 10 t n → Numeral 10 u m → Separable (t ++ '.' :: u) := by
    intro t u n m h1 h2
    refine ⟨by simp, fun c hc => ?_⟩
    simp only [List.mem_append, List.mem_cons] at hc
    rcases hc with hc | rfl | hc
    · exact h1.separable.2 c hc
    · decide
    · exact h2.separable.2 c hc
  cases h with
  | int h => exact h.separable
  | negInt h => exact .cons h.separable.2 (by decide)
  | frac h1 h2 => exact frac h1 h2
  | negFrac h1 h2 => exact .cons (frac h1 h2).2 (by decide)

theorem Board.read_self (bs : List Byte) : Board.read bs 0 bs.length = some bs := by
  simp [Board.read]

theorem getScalarText_self (t : ScalarType) (ctx : Ctx) {bs : List Byte} (hl : bs.length = t.size) :
    getScalarText t ctx bs 0 = t.toText ctx (BitVec.ofNat 32 (decLE bs)) := by
  have := Board.read_self bs
  rw [hl] at this
  simp [getScalarText, readScalar, this, Out.bind]

theorem fromText_of_set_self {rd : Reader} {t : ScalarType} {ctx : Ctx} {bs : List Byte} {w : Str}
    (hl : bs.length = t.size) (h : setScalarText rd t ctx bs 0 w = .ok bs) :
    ∃ v, t.fromText rd ctx w = some v ∧ encLE t.size v.toNat = bs := by
  unfold setScalarText at h
  split at h
  · simp at h
  · rename_i v hv
    refine ⟨v, hv, ?_⟩
    unfold writeScalar at h
    split at h
    · rename_i b' hw
      simp only [Out.ok.injEq] at h
      subst h
      have h1 := Board.read_write_same hw
      have h2 := Board.read_self b'
      rw [encLE_length] at h1
      rw [hl] at h2
      rw [h1] at h2
      exact Option.some.inj h2
    · simp at h

/-- What a text carries: set with the format `ctx'`, it gives a value that has the same texts. -/
def ScalarType.Carries (rd : Reader) (t : ScalarType) (ctx ctx' : Ctx) (bs : List Byte) : Prop :=
  ∃ w v, t.toText ctx (BitVec.ofNat 32 (decLE bs)) = .ok w ∧ (t.SeparableTexts → Separable w) ∧
    t.fromText rd ctx' w = some v ∧
    ∀ c, t.toText c (BitVec.ofNat 32 (decLE (encLE t.size v.toNat))) = t.toText c (BitVec.ofNat 32 (decLE bs))

theorem EnumType.carries_raw (rd : Reader) (t : EnumType)
    (hsz : t.size = 1 ∨ t.size = 2 ∨ t.size = 4) (hex hex' raw' : Bool) (bs : List Byte) (hl : bs.length = t.size)
    (hd : t.Declared (memValue true bs)) (h4 : t.size = 4 → hex = false ∧ 0 ≤ memValue true bs)
    (hr : raw' = true ∨ 0 ≤ memValue true bs) :
    ScalarType.Carries rd (.enum t) ⟨true, hex⟩ ⟨raw', hex'⟩ bs := by
  have hlt := decLE_lt bs
  rw [hl, pow256] at hlt
  have hmv : memValue true bs = Int.bmod (decLE bs) (2 ^ (8 * t.size)) := by
    unfold memValue; rw [if_pos rfl, hl]
  have h31 : decLE bs < 2147483648 := by
    rcases hsz with e | e | e
    · rw [e] at hlt; simp at hlt; omega
    · rw [e] at hlt; simp at hlt; omega
    · have := (h4 e).2
      rw [hmv] at this
      rw [e] at hlt this; simp [Int.bmod_def] at hlt this; omega
  have hn : (BitVec.ofNat 32 (decLE bs)).toNat = decLE bs := by
    rw [BitVec.toNat_ofNat]; apply Nat.mod_eq_of_lt; omega
  have htext : ∃ out, t.toText ⟨true, hex⟩ (BitVec.ofNat 32 (decLE bs)) = .ok out ∧
      PlainInt out (decLE bs) := by
    unfold EnumType.toText
    simp only [if_true]
    cases hex with
    | true =>
      have hs : t.size = 1 ∨ t.size = 2 := by
        rcases hsz with e | e | e
        · exact .inl e
        · exact .inr e
        · simp at h4; exact absurd e h4
      simp only [if_true]
      rw [if_neg (by omega)]
      have hmask : (BitVec.ofNat 32 (decLE bs) &&& (1#32 <<< (t.size * 8) - 1#32)).toNat = decLE bs := by
        rw [BitVec.toNat_and, hn]
        have hm : (1#32 <<< (t.size * 8) - 1#32).toNat = 2 ^ (8 * t.size) - 1 := by
          rcases hs with e | e <;> rw [e] <;> decide
        rw [hm, Nat.and_two_pow_sub_one_eq_mod, Nat.mod_eq_of_lt hlt]
      rw [hmask]
      obtain ⟨u, hu, hnum⟩ := numeral_hexText (t.size * 2) (decLE bs)
      exact ⟨_, rfl, by rw [hu]; exact .hex hnum⟩
    | false =>
      simp only [Bool.false_eq_true, if_false]
      exact ⟨_, rfl, by rw [hn]; exact .dec (numeral_natText _)⟩
  obtain ⟨out, ho, hp⟩ := htext
  have hfit : FitsSigned t.size (memValue true bs) := by
    rw [hmv]
    unfold FitsSigned
    rcases hsz with e | e | e <;> rw [e] at hlt ⊢ <;> simp [Int.bmod_def] at hlt ⊢ <;> omega
  obtain ⟨p, hpm, hpe⟩ := hd
  have hf : t.fromText ⟨raw', hex'⟩ out = some p.2 := by
    rw [t.fromText_iff hsz]
    refine ⟨decLE bs, .inl ⟨hp, ?_⟩, ?_, ⟨p, hpm, rfl⟩, by rw [hpe]; exact hfit⟩
    · unfold FitsSigned; simp; omega
    · split
      · rw [hpe, hmv]
      · rename_i hr'
        have h0 : 0 ≤ memValue true bs := hr.resolve_left hr'
        rw [hpe]
        rw [hmv] at h0 ⊢
        rcases hsz with e | e | e <;> rw [e] at hlt h0 ⊢ <;> simp [Int.bmod_def] at hlt h0 ⊢ <;> omega
  have henc : encLE t.size p.2.toNat = bs := encLE_of_toInt hsz hl (by rw [hpe, hmv])
  refine ⟨out, p.2, ho, fun _ => hp.separable, hf, fun c => ?_⟩
  simp only [ScalarType.size]
  rw [henc]

theorem EnumType.carries_real (rd : Reader) (t : EnumType)
    (hsz : t.size = 1 ∨ t.size = 2 ∨ t.size = 4) (hnames : (t.pairs.map (·.1)).Nodup)
    (hplain : ∀ p ∈ t.pairs, ¬ ∃ n, PlainInt p.1 n) (hex : Bool) (ctx' : Ctx) (bs : List Byte)
    (hl : bs.length = t.size) (hd : t.Declared (memValue true bs)) :
    ScalarType.Carries rd (.enum t) ⟨false, hex⟩ ctx' bs := by
  have hr := Board.read_self bs
  rw [hl] at hr
  obtain ⟨out, h1, ⟨v, h2, h3⟩, h4⟩ := C35_real_round_trip rd t hsz hnames hplain hex hex bs 0 bs hr hd
  rw [getScalarText_self (.enum t) _ hl] at h1
  obtain ⟨w, hw, henc⟩ := fromText_of_set_self (t := .enum t) hl h4
  refine ⟨out, w, h1, fun hs => hs _ h2, ?_, fun c => by simp only [ScalarType.size] at henc ⊢; rw [henc]⟩
  obtain ⟨n, e1, e2, e3, e4⟩ := (t.fromText_iff hsz ⟨false, hex⟩ out w).1 hw
  refine (t.fromText_iff hsz ctx' out w).2 ⟨n, e1, ?_, e3, e4⟩
  simp only [Bool.false_eq_true, if_false] at e2
  rw [e2] at e4
  rw [e2]
  split
  · exact (bmod_of_fits hsz e4).symm
  · rfl

theorem FixedType.carries_raw (rd : Reader) (t : FixedType) (wf : t.WF) (hex hex' : Bool)
    (bs : List Byte) (hl : bs.length = t.size) :
    ScalarType.Carries rd (.fixed t) ⟨true, hex⟩ ⟨true, hex'⟩ bs := by
  have hr := Board.read_self bs
  rw [hl] at hr
  obtain ⟨out, h1, h2, h3⟩ := C33_get_then_set rd t.rawInt (t.rawInt_wf wf) ⟨true, hex⟩ ⟨true, hex'⟩ bs 0 bs hr
  rw [getScalarText_self (.int t.rawInt) _ hl] at h1
  simp only [ScalarType.toText] at h1
  have hin : t.rawInt.min ≤ memValue t.rawInt.signed bs ∧ memValue t.rawInt.signed bs ≤ t.rawInt.max := by
    have hlt := decLE_lt bs
    rw [hl, pow256] at hlt
    simp only [FixedType.rawInt, memValue, if_true, hl]
    rcases wf.size with e | e | e <;> rw [e] at hlt ⊢ <;> simp [Int.bmod_def] at hlt ⊢ <;> omega
  rw [if_pos hin] at h3
  obtain ⟨v, hv, henc⟩ := fromText_of_set_self (t := .int t.rawInt) hl h3
  refine ⟨out, v, ?_, fun _ => h2.separable, ?_, fun c => ?_⟩
  · simp only [ScalarType.toText, t.toText_raw]; exact h1
  · simp only [ScalarType.fromText, t.fromText_raw wf] at hv ⊢; exact hv
  · simp only [ScalarType.size, FixedType.rawInt] at henc ⊢; rw [henc]

theorem FixedType.carries_real {rd : Reader} (hrd : ReadsDecimals rd) (t : FixedType) (wf : t.WF)
    (hex hex' : Bool) (bs : List Byte) (hl : bs.length = t.size)
    (hd : ((2 ^ (8 * t.size - (t.integral + t.fractional + 1)) : Nat) : Int) ∣ memValue true bs) :
    ScalarType.Carries rd (.fixed t) ⟨false, hex⟩ ⟨false, hex'⟩ bs := by
  have hlt := decLE_lt bs
  rw [hl, pow256] at hlt
  obtain ⟨r, hr⟩ := hd
  have hmv : memValue true bs = Int.bmod (decLE bs) (2 ^ (8 * t.size)) := by
    unfold memValue; rw [if_pos rfl, hl]
  have hfit : FitsSigned t.size (memValue true bs) := by
    rw [hmv]
    unfold FitsSigned
    rcases wf.size with e | e | e <;> rw [e] at hlt ⊢ <;> simp [Int.bmod_def] at hlt ⊢ <;> omega
  have hpow : 2 ^ (t.integral + t.fractional) * 2 ^ (8 * t.size - (t.integral + t.fractional + 1)) =
      2 ^ (8 * t.size - 1) := by
    rw [← Nat.pow_add]
    congr 1
    have := wf.fits
    omega
  have hpos : (0 : Int) < ((2 ^ (8 * t.size - (t.integral + t.fractional + 1)) : Nat) : Int) := by
    exact_mod_cast Nat.two_pow_pos _
  -- the value as a double
  have hin : t.inRange ⟨r, t.fractional⟩ = true := by
    unfold FixedType.inRange
    unfold FitsSigned at hfit
    rw [← hpow, hr] at hfit
    push_cast at hfit hpos
    have h1 : r < ((2 ^ (t.integral + t.fractional) : Nat) : Int) := by
      push_cast
      by_contra hc
      have : (2:Int) ^ (t.integral + t.fractional) * 2 ^ (8 * t.size - (t.integral + t.fractional + 1)) ≤
          2 ^ (8 * t.size - (t.integral + t.fractional + 1)) * r := by
        rw [Int.mul_comm]
        exact Int.mul_le_mul_of_nonneg_left (by omega) (by omega)
      omega
    have h2 : -((2 ^ (t.integral + t.fractional) : Nat) : Int) ≤ r := by
      push_cast
      by_contra hc
      have : 2 ^ (8 * t.size - (t.integral + t.fractional + 1)) * r <
          2 ^ (8 * t.size - (t.integral + t.fractional + 1)) * -((2:Int) ^ (t.integral + t.fractional)) :=
        Int.mul_lt_mul_of_pos_left (by omega) (by omega)
      rw [Int.mul_neg, Int.mul_comm _ ((2:Int) ^ (t.integral + t.fractional))] at this
      omega
    have hp2 : (0 : Int) ≤ ((2 ^ t.fractional : Nat) : Int) := Int.natCast_nonneg _
    rw [Bool.and_eq_true, decide_eq_true_eq, decide_eq_true_eq]
    dsimp only
    refine ⟨Int.mul_le_mul_of_nonneg_right (by omega) hp2, Int.mul_le_mul_of_nonneg_right (by omega) hp2⟩
  have hround : roundDiv (r * (2 ^ t.fractional : Nat)) t.fractional = r := by
    have hc := roundDiv_close (r * (2 ^ t.fractional : Nat)) t.fractional
    generalize roundDiv (r * (2 ^ t.fractional : Nat)) t.fractional = z at hc
    have hp3 : (0 : Int) < ((2 ^ t.fractional : Nat) : Int) := by exact_mod_cast Nat.two_pow_pos _
    generalize ((2 ^ t.fractional : Nat) : Int) = m at hc hp3
    have e1 : (2 * (z - r)) * m ≤ 1 * m := by
      have := hc.1
      rw [Int.mul_assoc, Int.sub_mul, Int.mul_sub]
      simp only [Int.mul_assoc] at this
      omega
    have e2 : (2 * (r - z)) * m ≤ 1 * m := by
      have := hc.2
      rw [Int.mul_assoc, Int.sub_mul, Int.mul_sub]
      simp only [Int.mul_assoc] at this
      omega
    have f1 := Int.le_of_mul_le_mul_right e1 hp3
    have f2 := Int.le_of_mul_le_mul_right e2 hp3
    omega
  have hset : setDbl t bs 0 ⟨r, t.fractional⟩ = .ok bs := by
    have htb := (t.toBinary_toInt wf ⟨r, t.fractional⟩ hin).1
    simp only [hround] at htb
    have henc : encLE t.size (t.toBinary ⟨r, t.fractional⟩).toNat = bs := by
      refine encLE_of_toInt wf.size hl ?_
      rw [htb, ← hmv, hr, Int.mul_comm, Nat.mul_comm t.size 8]
      rfl
    have hb := Board.write_read_same (Board.read_self bs)
    unfold setDbl FixedType.fromDbl writeScalar
    rw [if_pos hin]
    simp only [henc, hb]
  obtain ⟨out, h1, h2⟩ := C38_real_text_round_trip rd hrd.dbl t wf hex bs bs 0 _ hset
  rw [getScalarText_self (.fixed t) _ hl] at h1
  obtain ⟨v, hv, henc⟩ := fromText_of_set_self (t := .fixed t) hl h2
  refine ⟨out, v, h1, fun _ => ?_, hv, fun c => by simp only [ScalarType.size] at henc ⊢; rw [henc]⟩
  simp only [ScalarType.toText, FixedType.toText, Bool.false_eq_true, if_false, Out.ok.injEq] at h1
  rw [← h1]
  exact (decimalText_fixedText _ _).separable

theorem boolToText_carries (rd : Reader) (ctx ctx' : Ctx) (bs : List Byte) (hl : bs.length = 1) :
    ScalarType.Carries rd .bool ctx ctx' bs := by
  have hlt := decLE_lt bs
  rw [hl] at hlt
  have hn : (BitVec.ofNat 32 (decLE bs)).toNat = decLE bs := by
    rw [BitVec.toNat_ofNat]; apply Nat.mod_eq_of_lt; omega
  by_cases h0 : BitVec.ofNat 32 (decLE bs) = 0#32
  · refine ⟨boolToText ctx 0#32, 0#32, by simp [ScalarType.toText, h0], fun _ => ?_, ?_, ?_⟩
    · cases hr : ctx.raw <;> cases hx : ctx.hex <;> simp [boolToText, hr, hx, Separable, s]
    · cases hr : ctx.raw <;> cases hx : ctx.hex <;> simp [boolToText, hr, hx, ScalarType.fromText, boolFromText] <;> decide
    · intro c; rw [h0]; rfl
  · refine ⟨boolToText ctx 1#32, 1#32, ?_, fun _ => ?_, ?_, ?_⟩
    · simp [ScalarType.toText, boolToText, h0]
    · cases hr : ctx.raw <;> cases hx : ctx.hex <;> simp [boolToText, hr, hx, Separable, s]
    · cases hr : ctx.raw <;> cases hx : ctx.hex <;> simp [boolToText, hr, hx, ScalarType.fromText, boolFromText] <;> decide
    · intro c
      have : BitVec.ofNat 32 (decLE (encLE ScalarType.bool.size (1#32 : BitVec 32).toNat)) = 1#32 := by decide
      rw [this]
      simp [ScalarType.toText, boolToText, h0]

theorem Spec.RealText.separable {u : Str} {k : Rat} (h : Spec.RealText u k) : Separable u := by
  have key : ∀ {t u : Str} {c : Char} {q : Rat} {n : Nat}, DecimalText t q → Numeral 10 u n → c = '+' ∨ c = '-' →
      Separable (t ++ 'e' :: c :: u) := by
    intro t u c q n h1 h2 hc
    refine ⟨by simp, fun d hd => ?_⟩
    simp only [List.mem_append, List.mem_cons] at hd
    rcases hd with hd | rfl | rfl | hd
    · exact h1.separable.2 d hd
    · decide
    · rcases hc with rfl | rfl <;> decide
    · exact h2.separable.2 d hd
  cases h with
  | plain h => exact h.separable
  | exp h1 h2 => exact key h1 h2 (.inl rfl)
  | negExp h1 h2 => exact key h1 h2 (.inr rfl)

theorem DecimalText.not_hex {u : Str} {k : Rat} (h : DecimalText u k) (r : Str) (hr : r.head? ≠ some 'x' ∧ r.head? ≠ some 'X') :
    isHexadecimal (u ++ r) = false := by
  have num : ∀ {t : Str} {n : Nat} (r : Str), Numeral 10 t n → r.head? ≠ some 'x' ∧ r.head? ≠ some 'X' →
      isHexadecimal (t ++ r) = false := by
    intro t n r h hr
    rw [isHexadecimal_false]
    have hc : ∀ c ∈ t, c ≠ 'x' ∧ c ≠ 'X' := by
      intro c hc
      obtain ⟨d, hd⟩ := h.chars.2 c hc
      have key : ∀ p ∈ digitTable, p.1 ≠ 'x' ∧ p.1 ≠ 'X' := by decide
      exact key _ hd.2
    intro ds
    match t, h.chars.1, hc with
    | [c], _, _ =>
      cases r with
      | nil => simp
      | cons e r =>
        simp only [List.head?_cons, ne_eq, Option.some.injEq] at hr
        simp only [List.cons_append, List.nil_append, ne_eq, List.cons.injEq]
        exact ⟨fun h => hr.1 h.2.1, fun h => hr.2 h.2.1⟩
    | c :: e :: t, _, hc =>
      have := hc e (by simp)
      simp only [List.cons_append, ne_eq, List.cons.injEq]
      exact ⟨fun h => this.1 h.2.1, fun h => this.2 h.2.1⟩
  have neg : ∀ t : Str, isHexadecimal ('-' :: t) = false := by
    intro t
    rw [isHexadecimal_false]
    intro ds
    simp
  cases h with
  | int h => exact num r h hr
  | negInt h => exact neg _
  | frac h1 h2 =>
    rw [List.append_assoc]
    exact num _ h1 (by simp)
  | negFrac h1 h2 => exact neg _

theorem Spec.RealText.not_hex {u : Str} {k : Rat} (h : Spec.RealText u k) : isHexadecimal u = false := by
  cases h with
  | plain h => have := h.not_hex [] (by simp); simpa using this
  | exp h1 h2 => exact h1.not_hex _ (by simp)
  | negExp h1 h2 => exact h1.not_hex _ (by simp)

theorem FloatType.carries {rd : Reader} (hrd : ReadsDecimals rd) (t : FloatType) {ctx ctx' : Ctx}
    (hraw : ctx'.raw = ctx.raw) (bs : List Byte) (hl : bs.length = 4)
    (hc : ScalarType.Carried ctx bs (.float t)) : ScalarType.Carries rd (.float t) ctx ctx' bs := by
  have hlt := decLE_lt bs
  rw [hl] at hlt
  have hn : (BitVec.ofNat 32 (decLE bs)).toNat = decLE bs := by
    rw [BitVec.toNat_ofNat]; apply Nat.mod_eq_of_lt; omega
  have henc : BitVec.ofNat 32 (decLE (encLE 4 (BitVec.ofNat 32 (decLE bs)).toNat)) = BitVec.ofNat 32 (decLE bs) := by
    rw [hn, decLE_encLE, Nat.mod_eq_of_lt hlt]
  have hmem : Spec.f32Mem bs = BitVec.ofNat 32 (decLE bs) := rfl
  obtain ⟨h1, h2, h3⟩ := hc
  rw [hmem] at h1 h3
  generalize hw : BitVec.ofNat 32 (decLE bs) = w at *
  have done : ∀ (text : Str), t.toText ctx w = text → Separable text → t.fromText rd ctx' text = some w →
      ScalarType.Carries rd (.float t) ctx ctx' bs := by
    intro text e1 e2 e3
    refine ⟨text, w, ?_, fun _ => e2, e3, fun c => ?_⟩
    · rw [hw, ← e1]; rfl
    · simp only [ScalarType.size]
      rw [henc, hw]
  obtain ⟨r, x⟩ := ctx
  obtain ⟨r', x'⟩ := ctx'
  simp only at hraw
  subst hraw
  cases r' with
  | true =>
    have hd : Denotes false 32 (t.toText ⟨true, x⟩ w) w.toNat := by
      unfold FloatType.toText
      cases x with
      | true =>
        simp only [if_true]
        exact (showbaseHex_spec w.toNat).denotes w.isLt (by rw [hn]; exact h2 rfl rfl)
      | false =>
        simp only [if_true, Bool.false_eq_true, if_false]
        exact .dec (numeral_natText _)
    exact done _ rfl hd.separable ((t.fromText_raw rd x' _ _).2 ⟨hd, h1⟩)
  | false =>
    obtain ⟨q, hq1, hq2⟩ := f32Text_real ((f32Finite_iff w).2 h1.1)
    obtain ⟨h4, h5⟩ := h3 rfl q hq2
    obtain ⟨v, hv1, hv2, hv3⟩ := hrd.flt _ q hq1 h4
    have e : v = w := by
      refine hv2.unique h5 ?_
      have := hv3.trans (f32Text_head w)
      rw [Bool.eq_iff_iff]; exact this
    subst e
    refine done (f32Text v) ?_ hq1.separable ((t.fromText_real rd x' _ _).2 ⟨hq1.not_hex, hv1, h1⟩)
    unfold FloatType.toText
    rw [if_neg (by simp)]

/-- The texts in the two value spaces differ. -/
def ScalarType.SpaceMatters : ScalarType → Prop
  | .fixed _ => True
  | .float _ => True
  | _ => False

/-- The text of a carried value carries it. -/
theorem ScalarType.Carried.carries {rd : Reader} (hrd : ReadsDecimals rd) {t : ScalarType} (reg : t.Regular)
    {ctx ctx' : Ctx} {bs : List Byte} (hraw : ctx.raw = true → ctx'.raw = true ∨ t.NonNegative bs) (hfx : t.SpaceMatters → ctx'.raw = ctx.raw)
    (hl : bs.length = t.size) (hc : t.Carried ctx bs) : t.Carries rd ctx ctx' bs := by
  cases t with
  | bool => exact boolToText_carries rd ctx ctx' bs hl
  | int t =>
    have hr := Board.read_self bs
    rw [hl] at hr
    obtain ⟨out, h1, h2, h3⟩ := C33_get_then_set rd t reg ctx ctx' bs 0 bs hr
    simp only [ScalarType.Carried] at hc
    rw [if_pos hc] at h3
    rw [getScalarText_self (.int t) _ hl] at h1
    obtain ⟨v, hv, henc⟩ := fromText_of_set_self (t := .int t) hl h3
    exact ⟨out, v, h1, fun _ => h2.separable, hv, fun c => by rw [henc]⟩
  | enum t =>
    obtain ⟨r, x⟩ := ctx
    obtain ⟨r', x'⟩ := ctx'
    cases r with
    | true =>
      exact t.carries_raw rd reg.1 x x' r' bs hl hc.1 (hc.2 rfl) (hraw rfl)
    | false => exact t.carries_real rd reg.1 reg.2.1 reg.2.2 x _ bs hl hc.1
  | fixed t =>
    obtain ⟨r, x⟩ := ctx
    obtain ⟨r', x'⟩ := ctx'
    have := hfx trivial
    simp only at this
    subst this
    cases r' with
    | true => exact t.carries_raw rd reg x x' bs hl
    | false => exact t.carries_real hrd reg x x' bs hl (hc rfl)
  | float t => exact t.carries hrd (hfx trivial) bs hl hc

end PF
