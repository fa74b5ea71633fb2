import Verif.Lemmas.Float64
import Verif.Lemmas.Integer
import Verif.Lemmas.Structure

/-! Helper lemmas about adaptations. -/

namespace PF
open Spec

attribute [local irreducible] f64Round f64Limit

theorem ratTrunc_spec (q : Rat) : IntPart q (ratTrunc q) := by
  have hd : (0 : Rat) < q.den := by exact_mod_cast q.den_pos
  have hdi : (0 : Int) < q.den := by exact_mod_cast q.den_pos
  have e : q = q.num / q.den := (Rat.num_div_den q).symm
  have key := Int.tdiv_mul_add_tmod q.num q.den
  have hkey : (ratTrunc q : Rat) * q.den + (q.num.tmod q.den : Int) = q.num := by
    unfold ratTrunc; exact_mod_cast key
  constructor
  · intro h
    have hn : 0 ≤ q.num := Rat.num_nonneg.2 h
    have h1 : 0 ≤ q.num.tmod q.den := Int.tmod_nonneg _ hn
    have h2 : q.num.tmod q.den < q.den := Int.tmod_lt_of_pos _ hdi
    have h1' : (0 : Rat) ≤ (q.num.tmod q.den : Int) := by exact_mod_cast h1
    have h2' : ((q.num.tmod q.den : Int) : Rat) < q.den := by exact_mod_cast h2
    generalize (ratTrunc q : Rat) = r at *
    constructor
    · rw [e, le_div_iff₀ hd]; linarith
    · rw [e, div_lt_iff₀ hd]; linarith
  · intro h
    have hn : q.num ≤ 0 := Rat.num_nonpos.2 h
    have e2 : q.num.tmod q.den = -((-q.num).tmod q.den) := by rw [Int.neg_tmod]; omega
    have h1 : 0 ≤ (-q.num).tmod q.den := Int.tmod_nonneg _ (by omega)
    have h2 : (-q.num).tmod q.den < q.den := Int.tmod_lt_of_pos _ hdi
    rw [e2] at hkey
    generalize (-q.num).tmod q.den = z at *
    have h1' : (0 : Rat) ≤ z := by exact_mod_cast h1
    have h2' : (z : Rat) < q.den := by exact_mod_cast h2
    push_cast at hkey
    generalize (ratTrunc q : Rat) = r at *
    constructor
    · rw [e, div_le_iff₀ hd]; linarith
    · rw [e, lt_div_iff₀ hd]; linarith

theorem Spec.IntPart.unique {q : Rat} {n m : Int} (h1 : IntPart q n) (h2 : IntPart q m) : n = m := by
  rcases le_total 0 q with h | h
  · have a := h1.1 h; have b := h2.1 h
    have c : (n : Rat) < m + 1 := by linarith
    have d : (m : Rat) < n + 1 := by linarith
    have c' : n < m + 1 := by exact_mod_cast c
    have d' : m < n + 1 := by exact_mod_cast d
    omega
  · have a := h1.2 h; have b := h2.2 h
    have c : (n : Rat) - 1 < m := by linarith
    have d : (m : Rat) - 1 < n := by linarith
    have c' : n - 1 < m := by exact_mod_cast c
    have d' : m - 1 < n := by exact_mod_cast d
    omega

theorem Spec.IntPart.mono {q q' : Rat} {n n' : Int} (h : IntPart q n) (h' : IntPart q' n') (hle : q ≤ q') : n ≤ n' := by
  by_contra hc
  have hc' : (n' : Rat) + 1 ≤ n := by exact_mod_cast (by omega : n' + 1 ≤ n)
  rcases le_total 0 q with h0 | h0
  · have a := h.1 h0; have b := h'.1 (le_trans h0 hle)
    linarith
  · have a := h.2 h0
    rcases le_total 0 q' with h1 | h1
    · have b := h'.1 h1
      have c : (n : Rat) < 1 := by linarith
      have d : (-1 : Rat) < n' := by linarith
      have c' : n < 1 := by exact_mod_cast c
      have d' : -1 < n' := by exact_mod_cast d
      omega
    · have b := h'.2 h1
      linarith

theorem Spec.IntPart.int (n : Int) : IntPart (n : Rat) n := ⟨fun _ => ⟨le_refl _, by linarith⟩, fun _ => ⟨le_refl _, by linarith⟩⟩

theorem Spec.IntPart.dist {q : Rat} {n : Int} (h : IntPart q n) : |(n : Rat) - q| < 1 := by
  rw [abs_lt]
  rcases le_total 0 q with h0 | h0
  · have := h.1 h0; constructor <;> linarith
  · have := h.2 h0; constructor <;> linarith

theorem F64.div_fin (x : Rat) {y : Rat} (h : y ≠ 0) : F64.div (.fin x) (.fin y) = f64Round (x / y) := by
  simp only [F64.div, h, if_false]

theorem F64.div_zero (x : F64) : x.div (.fin 0) = .notFinite := by
  cases x <;> simp only [F64.div, if_true]

/-- The steps of a linear conversion. -/
theorem Adaptation.linFrom_cases (a : Adaptation) (hd : a.den ≠ 0) (d : Rat) :
    (f64Round (d * a.num) = .notFinite ∧ a.linFrom (.fin d) = .abort) ∨
    ∃ x, f64Round (d * a.num) = .fin x ∧
      ((f64Round (x / a.den) = .notFinite ∧ a.linFrom (.fin d) = .abort) ∨
       ∃ y, f64Round (x / a.den) = .fin y ∧
        ((Fits64 (ratTrunc y) ∧ Fits64 (ratTrunc y + a.off) ∧ a.linFrom (.fin d) = .ok (ratTrunc y + a.off)) ∨
         (¬ (Fits64 (ratTrunc y) ∧ Fits64 (ratTrunc y + a.off)) ∧ a.linFrom (.fin d) = .abort))) := by
  have e : a.linFrom (.fin d) = ((f64Round (d * a.num)).div (.fin a.den)).toInt64.bind fun n => addInt64 n a.off := rfl
  rw [e]
  cases f64Round (d * a.num) with
  | notFinite => left; exact ⟨rfl, rfl⟩
  | fin x =>
    right
    refine ⟨x, rfl, ?_⟩
    rw [F64.div_fin x hd]
    cases f64Round (x / a.den) with
    | notFinite => left; exact ⟨rfl, rfl⟩
    | fin y =>
      right
      refine ⟨y, rfl, ?_⟩
      simp only [F64.toInt64]
      generalize ratTrunc y = n
      unfold Fits64
      by_cases c1 : -2 ^ 63 ≤ n ∧ n < 2 ^ 63
      · rw [if_pos c1]
        simp only [Out.bind]
        unfold addInt64
        by_cases c2 : -2 ^ 63 ≤ n + a.off ∧ n + a.off < 2 ^ 63
        · rw [if_pos c2]; exact .inl ⟨c1, c2, rfl⟩
        · rw [if_neg c2]; exact .inr ⟨fun h => c2 h.2, rfl⟩
      · rw [if_neg c1]
        exact .inr ⟨fun h => c1 h.1, rfl⟩

theorem Adaptation.linFrom_ok {a : Adaptation} (hd : a.den ≠ 0) {d : Rat} {n : Int}
    (h : a.linFrom (.fin d) = .ok n) :
    ∃ x y, f64Round (d * a.num) = .fin x ∧ f64Round (x / a.den) = .fin y ∧ n = ratTrunc y + a.off ∧
      Fits64 (ratTrunc y) ∧ Fits64 n := by
  rcases a.linFrom_cases hd d with ⟨_, h1⟩ | ⟨x, hx, ⟨_, h1⟩ | ⟨y, hy, h1⟩⟩
  · rw [h1] at h; cases h
  · rw [h1] at h; cases h
  · rcases h1 with ⟨f1, f2, h1⟩ | ⟨_, h1⟩
    · rw [h1] at h
      simp only [Out.ok.injEq] at h
      subst h
      exact ⟨x, y, hx, hy, rfl, f1, f2⟩
    · rw [h1] at h; cases h

theorem Adaptation.linFrom_spec {a : Adaptation} (hd : a.den ≠ 0) (d : Rat) :
    (∃ n, a.linFrom (.fin d) = .ok n ∧ LinearGives a.num a.den a.off d n) ∨
    (a.linFrom (.fin d) = .abort ∧ LinearOverflows a.num a.den a.off d) := by
  rcases a.linFrom_cases hd d with ⟨h0, h1⟩ | ⟨x, hx, ⟨h0, h1⟩ | ⟨y, hy, h1⟩⟩
  · exact .inr ⟨h1, .inl (f64Round_notFinite.1 h0)⟩
  · exact .inr ⟨h1, .inr ⟨x, f64Round_spec hx, .inl (f64Round_notFinite.1 h0)⟩⟩
  · rcases h1 with ⟨f1, f2, h1⟩ | ⟨hf, h1⟩
    · refine .inl ⟨_, h1, x, y, f64Round_spec hx, f64Round_spec hy, ?_, ?_, f2⟩
      · rw [show ratTrunc y + a.off - a.off = ratTrunc y by omega]; exact ratTrunc_spec y
      · rw [show ratTrunc y + a.off - a.off = ratTrunc y by omega]; exact f1
    · refine .inr ⟨h1, .inr ⟨x, f64Round_spec hx, .inr ⟨y, ratTrunc y, f64Round_spec hy, ratTrunc_spec y, ?_⟩⟩⟩
      by_cases c : Fits64 (ratTrunc y)
      · exact .inr fun c2 => hf ⟨c, c2⟩
      · exact .inl c

/-! ### The memory -/

theorem writeScalar_holds {t : IntType} (wf : t.WF) {b : Board} {off : Nat} (room : off + t.size ≤ b.length) {n : Int}
    (h1 : t.min ≤ n) (h2 : n ≤ t.max) :
    ∃ b', writeScalar t.size b off (BitVec.ofInt 32 n) = .ok b' ∧ HoldsInt t b' off n ∧ SameOutside b b' off t.size := by
  obtain ⟨b', hb⟩ := writeScalar_ok (BitVec.ofInt 32 n) room
  refine ⟨b', hb, ⟨encLE t.size (BitVec.ofInt 32 n).toNat, ?_, memValue_encLE t wf h1 h2⟩, writeScalar_frame hb⟩
  unfold writeScalar at hb
  split at hb
  · rename_i b'' hw
    simp only [Out.ok.injEq] at hb; subst hb
    have := Board.read_write_same hw
    rwa [encLE_length] at this
  · simp at hb

theorem writeScalar_same {t : IntType} (wf : t.WF) {b : Board} {off : Nat} {n : Int} (h : HoldsInt t b off n) :
    writeScalar t.size b off (BitVec.ofInt 32 n) = .ok b := by
  obtain ⟨bs, hr, rfl⟩ := h
  unfold writeScalar
  rw [encLE_memValue t wf bs (Board.read_length hr).1, Board.write_read_same hr]

theorem getIntDouble_holds (lm : Libm) {t : IntType} (wf : t.WF) {b : Board} {off : Nat} {n : Int} (h : HoldsInt t b off n)
    (a : Adaptation) : getIntDouble lm t (some a) b off = .ok (a.toUser lm n) := by
  obtain ⟨bs, hr, rfl⟩ := h
  have hl := (Board.read_length hr).1
  have hsz := t.size_bits wf
  have hlt := decLE_lt bs
  rw [hl, pow256] at hlt
  have hn : (BitVec.ofNat 32 (decLE bs)).toNat = decLE bs := by
    rw [BitVec.toNat_ofNat]
    apply Nat.mod_eq_of_lt
    rcases hsz with ⟨e, _⟩ | ⟨e, _⟩ | ⟨e, _⟩ <;> rw [e] at hlt <;> simp at hlt ⊢ <;> omega
  unfold getIntDouble readScalar IntType.toDouble
  simp only [hr, Out.bind]
  congr 2
  unfold memValue
  rw [hl]
  split
  · rw [signExtend_toInt wf.size, hn]
  · rw [hn]

theorem Spec.HoldsInt.unique {t : IntType} {b : Board} {off : Nat} {n m : Int} (h1 : HoldsInt t b off n) (h2 : HoldsInt t b off m) :
    n = m := by
  obtain ⟨bs, hr, rfl⟩ := h1
  obtain ⟨bs', hr', rfl⟩ := h2
  rw [hr] at hr'
  rw [Option.some.inj hr']

/-- The possible outcomes of a set. -/
theorem setIntDouble_cases (lm : Libm) {t : IntType} (wf : t.WF) (a : Adaptation) {b : Board} {off : Nat}
    (room : off + t.size ≤ b.length) (d : F64) :
    (∃ n b', a.fromUser lm d = .ok n ∧ t.min ≤ n ∧ n ≤ t.max ∧ setIntDouble lm t (some a) b off d = (.ok (), b') ∧
      HoldsInt t b' off n ∧ SameOutside b b' off t.size) ∨
    (∃ n, a.fromUser lm d = .ok n ∧ (n < t.min ∨ t.max < n) ∧ setIntDouble lm t (some a) b off d = (.err, b)) ∨
    (a.fromUser lm d = .err ∧ setIntDouble lm t (some a) b off d = (.err, b)) ∨
    (a.fromUser lm d = .abort ∧ setIntDouble lm t (some a) b off d = (.abort, b)) := by
  have e : setIntDouble lm t (some a) b off d =
      match (a.fromUser lm d).bind fun n => if n < t.min ∨ n > t.max then .err else .ok (BitVec.ofInt 32 n) with
      | .ok v => (writeScalar t.size b off v).withBoard b
      | .err => (.err, b)
      | .abort => (.abort, b) := rfl
  rw [e]
  cases a.fromUser lm d with
  | err => right; right; left; exact ⟨rfl, rfl⟩
  | abort => right; right; right; exact ⟨rfl, rfl⟩
  | ok n =>
    by_cases hn : n < t.min ∨ n > t.max
    · right; left
      refine ⟨n, rfl, hn, ?_⟩
      simp only [Out.bind, hn, if_true]
    · left
      obtain ⟨b', hb, hh, hs⟩ := writeScalar_holds (b := b) (off := off) wf room (n := n) (by omega) (by omega)
      refine ⟨n, b', rfl, by omega, by omega, ?_, hh, hs⟩
      simp only [Out.bind, hn, if_false, hb, Out.withBoard]

/-- How far the integer is from the exact real number. -/
theorem linear_accuracy {num den d x y : Rat} {off n : Int} (hden : 1 / 2 ^ 1000 ≤ |den|)
    (hx : f64Round (d * num) = .fin x) (hy : f64Round (x / den) = .fin y) (hn : IntPart y (n - off))
    (hb : |((n - off : Int) : Rat)| ≤ 2 ^ 33) : |((n - off : Int) : Rat) - d * num / den| < 1 + 1 / 2 ^ 16 := by
  have e1 := f64Round_error hx
  have e2 := f64Round_error hy
  have e3 := hn.dist
  have hD : 0 < |den| := lt_of_lt_of_le (by positivity) hden
  have hden0 : den ≠ 0 := abs_pos.1 hD
  have hE : (0 : Rat) < 1 / 2 ^ 1075 := by positivity
  have hED : (1 / 2 ^ 1075 : Rat) ≤ 1 / 2 ^ 75 * |den| := by
    have h1 : (1 / 2 ^ 1075 : Rat) = 1 / 2 ^ 75 * (1 / 2 ^ 1000) := by
      rw [div_mul_div_comm, mul_one, ← pow_add]
    rw [h1]
    exact mul_le_mul_of_nonneg_left hden (by positivity)
  have hE' : (1 / 2 ^ 1075 : Rat) ≤ 1 / 2 ^ 75 := by
    exact one_div_le_one_div_of_le (by positivity) (pow_le_pow_right₀ (by norm_num) (by omega))
  generalize (1 / 2 ^ 1075 : Rat) = ε at *
  generalize ((n - off : Int) : Rat) = N at *
  -- the error of the product, divided
  have e1' : |x / den - d * num / den| ≤ |d * num / den| / 2 ^ 53 + 1 / 2 ^ 75 := by
    rw [← sub_div, abs_div, abs_div, div_le_iff₀ hD]
    have : (|d * num| / |den| / 2 ^ 53 + 1 / 2 ^ 75) * |den| = |d * num| / 2 ^ 53 + 1 / 2 ^ 75 * |den| := by
      have := hD.ne'
      field_simp
    rw [this]
    linarith
  generalize x / den = X at *
  generalize d * num / den = Q at *
  have a1 : |X| ≤ |y| + |y - X| := by
    have := abs_sub_abs_le_abs_sub X y
    rw [abs_sub_comm] at this
    linarith
  have a2 : |y| ≤ |N| + |N - y| := by
    have := abs_sub_abs_le_abs_sub y N
    rw [abs_sub_comm] at this
    linarith
  have a3 : |Q| ≤ |X| + |X - Q| := by
    have := abs_sub_abs_le_abs_sub Q X
    rw [abs_sub_comm] at this
    linarith
  have a4 : |N - Q| ≤ |N - y| + |y - X| + |X - Q| := by
    have h1 := abs_add_le (N - y) (y - X)
    have h2 := abs_add_le (N - y + (y - X)) (X - Q)
    have e : N - y + (y - X) + (X - Q) = N - Q := by ring
    rw [e] at h2
    linarith
  have p1 : 0 ≤ |X| := abs_nonneg X
  have p2 : 0 ≤ |Q| := abs_nonneg Q
  generalize |X| = X' at *
  generalize |Q| = Q' at *
  generalize |y| = y' at *
  generalize |N| = N' at *
  generalize |N - y| = z1 at *
  generalize |y - X| = z2 at *
  generalize |X - Q| = z3 at *
  generalize |N - Q| = z4 at *
  norm_num at *
  linarith

/-- Small integers are numbers of double precision. -/
theorem isF64_int {n : Int} (h : n.natAbs < 2 ^ 53) : IsF64 (n : Rat) := by
  refine ⟨n, 1074, h, by omega, ?_⟩
  rw [mul_div_assoc, div_self (by positivity), mul_one]

/-! ### Documents -/

theorem SXml.dbl_ok {x : SXml} {rd : Reader} {name : Str} {dflt v : F64} (h : x.dbl rd name dflt = .ok v) :
    RealAttr rd x name dflt v := by
  unfold SXml.dbl at h
  cases ha : x.attr name with
  | none =>
    simp only [ha, Out.ok.injEq] at h
    exact .inl ⟨ha, h.symm⟩
  | some t =>
    simp only [ha] at h
    cases hr : rd.dbl t with
    | none => simp [hr] at h
    | some d =>
      simp only [hr, Out.ok.injEq] at h
      exact .inr ⟨t, d, ha, hr, h.symm⟩

theorem Spec.RealAttr.fin {rd : Reader} {x : SXml} {name : Str} {q : Rat} {v : F64} (h : RealAttr rd x name (.fin q) v) :
    v = .fin v.val := by
  rcases h with ⟨_, rfl⟩ | ⟨_, _, _, _, rfl⟩ <;> rfl

theorem loadLinear_ok {rd : Reader} {x : SXml} {l : Option (F64 × F64)} {a : Adaptation} (h : loadLinear rd x l = .ok a) :
    RealAttr rd x (s "SlopeNumerator") (.fin 1) (.fin a.num) ∧ RealAttr rd x (s "SlopeDenominator") (.fin 1) (.fin a.den) ∧
    NumAttr x (s "Offset") 0 a.off ∧ -2 ^ 31 ≤ a.off ∧ a.off < 2 ^ 31 ∧ a.den ≠ 0 ∧ a.log = l := by
  unfold loadLinear at h
  rw [Out.bind_ok] at h
  obtain ⟨num, hnum, h⟩ := h
  rw [Out.bind_ok] at h
  obtain ⟨den, hden, h⟩ := h
  split at h
  · cases h
  · rename_i h0
    rw [Out.bind_ok] at h
    obtain ⟨off, hoff, h⟩ := h
    rw [Out.bind_ok] at h
    obtain ⟨_, _, h⟩ := h
    simp only [Out.ok.injEq] at h
    subst h
    have h1 := SXml.dbl_ok hnum
    have h2 := SXml.dbl_ok hden
    have h3 := SXml.num_ok hoff
    have h4 := h3.2
    simp at h4
    have f1 := h1.fin
    have f2 := h2.fin
    refine ⟨?_, ?_, h3.1, ?_, ?_, h0, rfl⟩
    · rw [← f1]; exact h1
    · rw [← f2]; exact h2
    · have := h4.1; norm_num; omega
    · have := h4.2; norm_num; omega

end PF
