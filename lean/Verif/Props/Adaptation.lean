import Verif.Lemmas.Adaptation

/-!
# C79: integer parameters seen as real numbers
-/

namespace PF
open Spec

/-! A signed parameter of one byte, in tenths above an offset, and a C library. -/

namespace SampleAdapt

/-- From -100 to 100. -/
def type : IntType := { signed := true, size := 1, min := -100, max := 100 }

theorem type_wf : type.WF := ⟨by decide, by decide, by decide, by decide⟩

/-- Slope 1/10, offset 5. -/
def tenths : Adaptation := ⟨1, 10, 5, none⟩

/-- Slope 49. -/
def slope49 : Adaptation := ⟨49, 1, 0, none⟩

/-- A library whose functions give nothing finite. -/
def lib : Libm := ⟨fun _ => .notFinite, fun _ => .notFinite⟩

/-- A library with the logarithms of base 2 of some powers. -/
def lib2 : Libm :=
  ⟨fun x => if x = .fin 2 then .fin 1 else if x = .fin 8 then .fin 3 else if x = .fin (1 / 8) then .fin (-3) else .notFinite, fun _ => .notFinite⟩

/-- A reader of some numbers. -/
def reader : Reader :=
  ⟨fun t => if t = s "0" then some ⟨0, 0⟩ else if t = s "2" then some ⟨2, 0⟩ else if t = s "10" then some ⟨10, 0⟩ else none, fun _ => none⟩

end SampleAdapt

/-- **C79** fails for reading back in general: with a slope of 49, a parameter holding 1 is read as a number that, set again, stores
0. -/
theorem C79_read_back_wrong :
    ∃ v, getIntDouble SampleAdapt.lib SampleAdapt.type (some SampleAdapt.slope49) [1#8] 0 = .ok (.fin v) ∧
      setIntDouble SampleAdapt.lib SampleAdapt.type (some SampleAdapt.slope49) [1#8] 0 (.fin v) = (.ok (), [0#8]) ∧
      HoldsInt SampleAdapt.type [1#8] 0 1 ∧ HoldsInt SampleAdapt.type [0#8] 0 0 :=
  ⟨(SampleAdapt.slope49.toUser SampleAdapt.lib 1).val, by decide +kernel, by decide +kernel, ⟨[1#8], by decide, by decide⟩,
    ⟨[0#8], by decide, by decide⟩⟩

-- 123.5 is 12.35 tenths: 17 is stored, read as 120; 1000 is refused; the range of the addition is not left
example : setIntDouble SampleAdapt.lib SampleAdapt.type (some SampleAdapt.tenths) [1#8, 2#8, 3#8] 1 (.fin (247 / 2)) =
    (.ok (), [1#8, 17#8, 3#8]) := by decide +kernel
example : setIntDouble SampleAdapt.lib SampleAdapt.type (some SampleAdapt.tenths) [1#8, 2#8, 3#8] 1 (.fin (-247 / 2)) =
    (.ok (), [1#8, 249#8, 3#8]) := by decide +kernel
example : setIntDouble SampleAdapt.lib SampleAdapt.type (some SampleAdapt.tenths) [1#8, 2#8, 3#8] 1 (.fin 1000) =
    (.err, [1#8, 2#8, 3#8]) := by decide +kernel
example : getIntDouble SampleAdapt.lib SampleAdapt.type (some SampleAdapt.tenths) [1#8, 17#8, 3#8] 1 = .ok (.fin 120) := by decide +kernel
example : SampleAdapt.tenths.log = none ∧ SampleAdapt.tenths.den ≠ 0 ∧ SampleAdapt.tenths.num ≠ 0 ∧ 0 < SampleAdapt.tenths.den ∧
    HoldsInt SampleAdapt.type [1#8, 17#8, 3#8] 1 17 :=
  ⟨rfl, by decide, by decide, by decide, [17#8], by decide, by decide⟩
example : (1 / 2 ^ 1000 : Rat) ≤ |SampleAdapt.tenths.den| := by
  have h : (1 : Rat) ≤ 2 ^ 1000 := one_le_pow₀ (by norm_num)
  have h2 : (1 / 2 ^ 1000 : Rat) ≤ 1 := by rw [div_le_one (by positivity)]; exact h
  have h3 : |SampleAdapt.tenths.den| = 10 := by decide
  rw [h3]; linarith
-- logarithmic, base 2, floor -2
example : setIntDouble SampleAdapt.lib2 SampleAdapt.type (some ⟨1, 1, 0, some (.fin 2, .fin (-2))⟩) [9#8] 0 (.fin 8) = (.ok (), [3#8]) ∧
    setIntDouble SampleAdapt.lib2 SampleAdapt.type (some ⟨1, 1, 0, some (.fin 2, .fin (-2))⟩) [9#8] 0 (.fin (1 / 8)) = (.ok (), [254#8]) :=
  ⟨by decide +kernel, by decide +kernel⟩
-- documents
example : loadAdaptation SampleAdapt.reader SampleAdapt.lib
      (.mk (s "LinearAdaptation") [(s "SlopeDenominator", s "10"), (s "Offset", s "5")] []) = .ok SampleAdapt.tenths := by
  decide +kernel
example : loadAdaptation SampleAdapt.reader SampleAdapt.lib (.mk (s "LogarithmicAdaptation") [(s "LogarithmBase", s "2")] []) =
    .ok ⟨1, 1, 0, some (.fin 2, .notFinite)⟩ := by decide +kernel
-- a zero numerator is accepted, a zero denominator is not
example : loadAdaptation SampleAdapt.reader SampleAdapt.lib (.mk (s "LinearAdaptation") [(s "SlopeNumerator", s "0")] []) =
    .ok ⟨0, 1, 0, none⟩ := by decide +kernel
example : loadAdaptation SampleAdapt.reader SampleAdapt.lib (.mk (s "LinearAdaptation") [(s "SlopeDenominator", s "0")] []) = .err := by
  decide +kernel
example : IsF64 (2 ^ 63 : Rat) := ⟨1, 1137, by decide, by decide, by
  rw [show (1137 : Nat) = 63 + 1074 from rfl, pow_add, Int.cast_one, one_mul, mul_div_assoc, div_self (by positivity), mul_one]⟩

attribute [local irreducible] f64Round f64Limit

/-- **C79** (setting).  Setting a real number through a linear adaptation stores the integer that the adaptation gives for
it, if the type of the parameter has that integer; else it is refused.  A computation that leaves the range of its types is
undefined behaviour.  Nothing is changed but the bytes of the parameter, and nothing at all by a failure. -/
theorem C79_set (lm : Libm) (t : IntType) (wf : t.WF) (a : Adaptation) (lin : a.log = none) (hd : a.den ≠ 0)
    (b : Board) (off : Nat) (room : off + t.size ≤ b.length) (d : Rat) :
    (∃ n b', LinearGives a.num a.den a.off d n ∧ t.min ≤ n ∧ n ≤ t.max ∧
      setIntDouble lm t (some a) b off (.fin d) = (.ok (), b') ∧ HoldsInt t b' off n ∧ SameOutside b b' off t.size) ∨
    (∃ n, LinearGives a.num a.den a.off d n ∧ (n < t.min ∨ t.max < n) ∧
      setIntDouble lm t (some a) b off (.fin d) = (.err, b)) ∨
    (LinearOverflows a.num a.den a.off d ∧ setIntDouble lm t (some a) b off (.fin d) = (.abort, b)) := by
  have hf : a.fromUser lm (.fin d) = a.linFrom (.fin d) := by unfold Adaptation.fromUser; rw [lin]
  have hs := a.linFrom_spec hd d
  rcases setIntDouble_cases lm wf a room (.fin d) with ⟨n, b', h, h1, h2, h3, h4⟩ | ⟨n, h, h1, h2⟩ | ⟨h, _⟩ | ⟨h, h1⟩
  all_goals rw [hf] at h
  all_goals rcases hs with ⟨m, hm, hg⟩ | ⟨hm, hg⟩ <;> rw [h] at hm <;> cases hm
  · exact .inl ⟨n, b', hg, h1, h2, h3, h4⟩
  · exact .inr (.inl ⟨n, hg, h1, h2⟩)
  · exact .inr (.inr ⟨hg, h1⟩)

/-- **C79** (reading).  Reading an integer parameter as a real number through a linear adaptation whose slope is not zero gives the number that
the adaptation shows for the integer in memory, unless it is too large for a `double`. -/
theorem C79_get (lm : Libm) (t : IntType) (wf : t.WF) (a : Adaptation) (lin : a.log = none) (hn : a.num ≠ 0)
    (ho : -2 ^ 31 ≤ a.off ∧ a.off < 2 ^ 31) (b : Board) (off : Nat) (n : Int) (hh : HoldsInt t b off n)
    (hr : -2 ^ 31 ≤ n ∧ n < 2 ^ 32) :
    (∃ v, getIntDouble lm t (some a) b off = .ok (.fin v) ∧ LinearShows a.num a.den a.off n v) ∨
    (getIntDouble lm t (some a) b off = .ok .notFinite ∧
      (f64Limit ≤ |((n - a.off : Int) : Rat) * a.den| ∨
       ∃ x, Rounds ((n - a.off : Int) * a.den) x ∧ f64Limit ≤ |x / a.num|)) := by
  rw [getIntDouble_holds lm wf hh]
  have hi : f64Round ((n - a.off : Int) : Rat) = .fin ((n - a.off : Int) : Rat) := f64Round_exact (isF64_int (by omega))
  have e : a.toUser lm n = (f64Round (((n - a.off : Int) : Rat) * a.den)).div (.fin a.num) := by
    unfold Adaptation.toUser
    rw [lin]
    simp only
    unfold Adaptation.linTo
    rw [hi]
    rfl
  rw [e]
  cases h1 : f64Round (((n - a.off : Int) : Rat) * a.den) with
  | notFinite => exact .inr ⟨rfl, .inl (f64Round_notFinite.1 h1)⟩
  | fin x =>
    rw [F64.div_fin x hn]
    cases h2 : f64Round (x / a.num) with
    | notFinite => exact .inr ⟨rfl, .inr ⟨x, f64Round_spec h1, f64Round_notFinite.1 h2⟩⟩
    | fin v => exact .inl ⟨v, rfl, x, f64Round_spec h1, f64Round_spec h2⟩

/-- Inverting a successful set. -/
theorem setIntDouble_linear {lm : Libm} {t : IntType} (wf : t.WF) {a : Adaptation} (lin : a.log = none) (hd : a.den ≠ 0)
    {b b' : Board} {off : Nat} (room : off + t.size ≤ b.length) {d : Rat}
    (h : setIntDouble lm t (some a) b off (.fin d) = (.ok (), b')) :
    ∃ x y, f64Round (d * a.num) = .fin x ∧ f64Round (x / a.den) = .fin y ∧
      t.min ≤ ratTrunc y + a.off ∧ ratTrunc y + a.off ≤ t.max ∧ HoldsInt t b' off (ratTrunc y + a.off) := by
  have hf : a.fromUser lm (.fin d) = a.linFrom (.fin d) := by unfold Adaptation.fromUser; rw [lin]
  rcases setIntDouble_cases lm wf a room (.fin d) with ⟨n, b'', h0, h1, h2, h3, h4, _⟩ | ⟨n, h0, h1, h2⟩ | ⟨h0, h2⟩ | ⟨h0, h2⟩
  · rw [h] at h3
    obtain rfl := (Prod.mk.inj h3).2
    rw [hf] at h0
    obtain ⟨x, y, hx, hy, rfl, _, _⟩ := Adaptation.linFrom_ok hd h0
    exact ⟨x, y, hx, hy, h1, h2, h4⟩
  all_goals rw [h2] at h; cases h

/-- The integers of the parameters. -/
theorem IntType.WF.range32 {t : IntType} (wf : t.WF) {n : Int} (h1 : t.min ≤ n) (h2 : n ≤ t.max) :
    -2 ^ 31 ≤ n ∧ n < 2 ^ 32 := by
  have hsz := t.size_bits wf
  have := wf.bounds h1 h2
  rcases hsz with ⟨_, e⟩ | ⟨_, e⟩ | ⟨_, e⟩ <;> rw [e] at this <;> split at this <;> simp at this <;> omega

/-- **C79** (accuracy).  The integer stored by a set, less the offset, is the exact product of the number with the slope,
to less than one unit but for rounding errors of at most `2^-16`. -/
theorem C79_accuracy (lm : Libm) (t : IntType) (wf : t.WF) (a : Adaptation) (lin : a.log = none)
    (hden : 1 / 2 ^ 1000 ≤ |a.den|) (ho : -2 ^ 31 ≤ a.off ∧ a.off < 2 ^ 31) (b b' : Board) (off : Nat)
    (room : off + t.size ≤ b.length) (d : Rat) (h : setIntDouble lm t (some a) b off (.fin d) = (.ok (), b')) :
    ∃ n, HoldsInt t b' off n ∧ |((n - a.off : Int) : Rat) - d * a.num / a.den| < 1 + 1 / 2 ^ 16 := by
  have hd : a.den ≠ 0 := by
    intro h0
    rw [h0, abs_zero] at hden
    exact absurd hden (not_le.2 (by positivity))
  obtain ⟨x, y, hx, hy, h1, h2, hh⟩ := setIntDouble_linear wf lin hd room h
  refine ⟨_, hh, ?_⟩
  have hr := wf.range32 h1 h2
  refine linear_accuracy hden hx hy ?_ ?_
  · rw [show ratTrunc y + a.off - a.off = ratTrunc y by omega]; exact ratTrunc_spec y
  · have : |ratTrunc y + a.off - a.off| ≤ 2 ^ 33 := by rw [abs_le]; omega
    exact_mod_cast this

/-- **C79** (exactness).  When the product of the number with the slope takes no rounding, what is stored is exactly its integer part and
the offset. -/
theorem C79_exact (lm : Libm) (t : IntType) (wf : t.WF) (a : Adaptation) (lin : a.log = none) (hd : a.den ≠ 0)
    (b b' : Board) (off : Nat) (room : off + t.size ≤ b.length) (d : Rat)
    (hp : IsF64 (d * a.num)) (hq : IsF64 (d * a.num / a.den))
    (h : setIntDouble lm t (some a) b off (.fin d) = (.ok (), b')) :
    ∃ n, IntPart (d * a.num / a.den) n ∧ HoldsInt t b' off (n + a.off) := by
  obtain ⟨x, y, hx, hy, h1, h2, hh⟩ := setIntDouble_linear wf lin hd room h
  rw [f64Round_exact hp] at hx
  obtain rfl := F64.fin.inj hx
  rw [f64Round_exact hq] at hy
  obtain rfl := F64.fin.inj hy
  exact ⟨_, ratTrunc_spec _, hh⟩

/-- **C79** (order).  With a positive slope a larger number never stores a smaller integer. -/
theorem C79_monotone (lm : Libm) (t : IntType) (wf : t.WF) (a : Adaptation) (lin : a.log = none) (hn : 0 < a.num)
    (hd : 0 < a.den) (b b1 b2 : Board) (off : Nat) (room : off + t.size ≤ b.length) (d1 d2 : Rat) (hle : d1 ≤ d2)
    (h1 : setIntDouble lm t (some a) b off (.fin d1) = (.ok (), b1))
    (h2 : setIntDouble lm t (some a) b off (.fin d2) = (.ok (), b2)) :
    ∃ n1 n2, HoldsInt t b1 off n1 ∧ HoldsInt t b2 off n2 ∧ n1 ≤ n2 := by
  obtain ⟨x1, y1, hx1, hy1, -, -, hh1⟩ := setIntDouble_linear wf lin hd.ne' room h1
  obtain ⟨x2, y2, hx2, hy2, -, -, hh2⟩ := setIntDouble_linear wf lin hd.ne' room h2
  refine ⟨_, _, hh1, hh2, ?_⟩
  have m1 := f64Round_mono hx1 hx2 (mul_le_mul_of_nonneg_right hle hn.le)
  have m2 := f64Round_mono hy1 hy2 (div_le_div_of_nonneg_right m1 hd.le)
  have := (ratTrunc_spec y1).mono (ratTrunc_spec y2) m2
  omega

/-- **C79** (defined).  A number whose product with the slope is below `2^62` in absolute value, and whose product with the
numerator is not beyond the largest `double`, is never undefined behaviour. -/
theorem C79_defined (lm : Libm) (t : IntType) (wf : t.WF) (a : Adaptation) (lin : a.log = none)
    (hden : 1 / 2 ^ 1000 ≤ |a.den|) (ho : -2 ^ 31 ≤ a.off ∧ a.off < 2 ^ 31) (b : Board) (off : Nat)
    (room : off + t.size ≤ b.length) (d : Rat) (hp : |d * a.num| < f64Limit) (hq : |d * a.num / a.den| ≤ 2 ^ 62) :
    (setIntDouble lm t (some a) b off (.fin d)).1 ≠ .abort := by
  have hD : 0 < |a.den| := lt_of_lt_of_le (by positivity) hden
  have hd : a.den ≠ 0 := abs_pos.1 hD
  have hf : a.fromUser lm (.fin d) = a.linFrom (.fin d) := by unfold Adaptation.fromUser; rw [lin]
  have hno : a.linFrom (.fin d) ≠ .abort := by
    obtain ⟨x, hx⟩ := f64Round_fin hp
    have e1 := f64Round_error hx
    have hED : (1 / 2 ^ 1075 : Rat) ≤ 1 / 2 ^ 75 * |a.den| := by
      have h1 : (1 / 2 ^ 1075 : Rat) = 1 / 2 ^ 75 * (1 / 2 ^ 1000) := by
        rw [div_mul_div_comm, mul_one, ← pow_add]
      rw [h1]
      exact mul_le_mul_of_nonneg_left hden (by positivity)
    have hE' : (1 / 2 ^ 1075 : Rat) ≤ 1 / 2 ^ 75 := by
      exact one_div_le_one_div_of_le (by positivity) (pow_le_pow_right₀ (by norm_num) (by omega))
    have hX : |x / a.den| ≤ 2 ^ 62 + 2 ^ 10 := by
      have h1 : |x| ≤ |d * a.num| + |x - d * a.num| := by
        have := abs_sub_abs_le_abs_sub x (d * a.num)
        linarith
      rw [abs_div] at hq ⊢
      rw [div_le_iff₀ hD] at hq ⊢
      generalize (1 / 2 ^ 1075 : Rat) = ε at *
      generalize |x| = x' at *
      generalize |d * a.num| = p' at *
      generalize |x - d * a.num| = z at *
      generalize |a.den| = D at *
      norm_num at *
      linarith
    have hlim : (2 : Rat) ^ 63 < f64Limit := by
      unfold f64Limit
      have h1 : (2 : Rat) ^ 63 < 2 ^ 970 := pow_lt_pow_right₀ (by norm_num) (by omega)
      have h2 : (0 : Rat) < 2 ^ 970 := by positivity
      generalize (2 : Rat) ^ 970 = E at *
      norm_num at *
      linarith
    obtain ⟨y, hy⟩ := f64Round_fin (q := x / a.den) (lt_of_le_of_lt hX (by norm_num at hlim ⊢; linarith))
    have e2 := f64Round_error hy
    have hY : |y| ≤ 2 ^ 62 + 2 ^ 12 := by
      have h1 : |y| ≤ |x / a.den| + |y - x / a.den| := by
        have := abs_sub_abs_le_abs_sub y (x / a.den)
        linarith
      generalize (1 / 2 ^ 1075 : Rat) = ε at *
      generalize |x / a.den| = X at *
      generalize |y - x / a.den| = z at *
      norm_num at *
      linarith
    have hT := (ratTrunc_spec y).dist
    have hN : |(ratTrunc y : Rat)| ≤ 2 ^ 62 + 2 ^ 13 := by
      have h1 : |(ratTrunc y : Rat)| ≤ |y| + |(ratTrunc y : Rat) - y| := by
        have := abs_sub_abs_le_abs_sub (ratTrunc y : Rat) y
        linarith
      norm_num at *
      linarith
    have hN' : |ratTrunc y| ≤ 2 ^ 62 + 2 ^ 13 := by exact_mod_cast hN
    rw [abs_le] at hN'
    rcases a.linFrom_cases hd d with ⟨h0, _⟩ | ⟨x', hx', ⟨h0, h1⟩ | ⟨y', hy', h1⟩⟩
    · rw [hx] at h0; cases h0
    · rw [hx] at hx'; obtain rfl := F64.fin.inj hx'
      rw [hy] at h0; cases h0
    · rw [hx] at hx'; obtain rfl := F64.fin.inj hx'
      rw [hy] at hy'; obtain rfl := F64.fin.inj hy'
      rcases h1 with ⟨_, _, h1⟩ | ⟨h0, _⟩
      · rw [h1]; simp
      · refine absurd ⟨⟨?_, ?_⟩, ⟨?_, ?_⟩⟩ h0 <;> omega
  rcases setIntDouble_cases lm wf a room (.fin d) with ⟨n, b'', h0, h1, h2, h3, h4, _⟩ | ⟨n, h0, h1, h2⟩ | ⟨h0, h2⟩ | ⟨h0, h2⟩
  · rw [h3]; simp
  · rw [h2]; simp
  · rw [h2]; simp
  · rw [hf] at h0; exact absurd h0 hno

/-- **C79** (reading back, partial).  Setting what was read leaves the memory as it was, when reading took no rounding and the
integer in memory is one the type has. -/
theorem C79_read_back_partial (lm : Libm) (t : IntType) (wf : t.WF) (a : Adaptation) (lin : a.log = none) (hn : a.num ≠ 0)
    (hd : a.den ≠ 0) (ho : -2 ^ 31 ≤ a.off ∧ a.off < 2 ^ 31) (b : Board) (off : Nat) (n : Int) (hh : HoldsInt t b off n)
    (h1 : t.min ≤ n) (h2 : n ≤ t.max)
    (hp : IsF64 (((n - a.off : Int) : Rat) * a.den)) (hq : IsF64 (((n - a.off : Int) : Rat) * a.den / a.num)) :
    ∃ v, getIntDouble lm t (some a) b off = .ok (.fin v) ∧ v = ((n - a.off : Int) : Rat) * a.den / a.num ∧
      setIntDouble lm t (some a) b off (.fin v) = (.ok (), b) := by
  have hr := wf.range32 h1 h2
  have hi := isF64_int (n := n - a.off) (by omega)
  refine ⟨((n - a.off : Int) : Rat) * a.den / a.num, ?_, rfl, ?_⟩
  · rw [getIntDouble_holds lm wf hh]
    unfold Adaptation.toUser
    rw [lin]
    simp only
    unfold Adaptation.linTo
    rw [f64Round_exact hi]
    have e : F64.mul (.fin ((n - a.off : Int) : Rat)) (.fin a.den) = f64Round (((n - a.off : Int) : Rat) * a.den) := rfl
    rw [e, f64Round_exact hp, F64.div_fin _ hn, f64Round_exact hq]
  · have e1 : ((n - a.off : Int) : Rat) * a.den / a.num * a.num = ((n - a.off : Int) : Rat) * a.den := by field_simp
    have e2 : ((n - a.off : Int) : Rat) * a.den / a.den = ((n - a.off : Int) : Rat) := by field_simp
    have hf : a.fromUser lm (.fin (((n - a.off : Int) : Rat) * a.den / a.num)) = .ok n := by
      unfold Adaptation.fromUser
      rw [lin]
      simp only
      rcases a.linFrom_cases hd (((n - a.off : Int) : Rat) * a.den / a.num) with ⟨h0, _⟩ | ⟨x', hx', ⟨h0, h3⟩ | ⟨y', hy', h3⟩⟩
      · rw [e1, f64Round_exact hp] at h0; cases h0
      · rw [e1, f64Round_exact hp] at hx'; obtain rfl := F64.fin.inj hx'
        rw [e2, f64Round_exact hi] at h0; cases h0
      · rw [e1, f64Round_exact hp] at hx'; obtain rfl := F64.fin.inj hx'
        rw [e2, f64Round_exact hi] at hy'; obtain rfl := F64.fin.inj hy'
        have et : ratTrunc ((n - a.off : Int) : Rat) = n - a.off := (ratTrunc_spec _).unique (IntPart.int _)
        rw [et] at h3
        rcases h3 with ⟨_, _, h3⟩ | ⟨h0, _⟩
        · rw [h3, show n - a.off + a.off = n by omega]
        · refine absurd ⟨⟨?_, ?_⟩, ⟨?_, ?_⟩⟩ h0 <;> omega
    unfold setIntDouble IntType.fromDouble
    simp only [hf, Out.bind]
    rw [if_neg (by omega)]
    simp only [writeScalar_same wf hh, Out.withBoard]

/-- **C79** (reading back, partial).  In particular for a numerator of 1 and a small integer denominator, whatever the offset. -/
theorem C79_read_back_unit_partial (lm : Libm) (t : IntType) (wf : t.WF) (a : Adaptation) (lin : a.log = none) (hn : a.num = 1)
    (k : Int) (hk : a.den = k) (hk0 : k ≠ 0) (hk1 : k.natAbs < 2 ^ 19) (ho : -2 ^ 31 ≤ a.off ∧ a.off < 2 ^ 31) (b : Board) (off : Nat)
    (n : Int) (hh : HoldsInt t b off n) (h1 : t.min ≤ n) (h2 : n ≤ t.max) :
    ∃ v, getIntDouble lm t (some a) b off = .ok (.fin v) ∧ v = ((n - a.off : Int) : Rat) * a.den ∧
      setIntDouble lm t (some a) b off (.fin v) = (.ok (), b) := by
  have hr := wf.range32 h1 h2
  have hp : IsF64 (((n - a.off : Int) : Rat) * a.den) := by
    rw [hk, ← Int.cast_mul]
    refine isF64_int ?_
    rw [Int.natAbs_mul]
    have h3 : (n - a.off).natAbs ≤ 2 ^ 33 := by omega
    calc (n - a.off).natAbs * k.natAbs ≤ 2 ^ 33 * k.natAbs := Nat.mul_le_mul_right _ h3
      _ < 2 ^ 53 := by omega
  have := C79_read_back_partial lm t wf a lin (by rw [hn]; decide) (by rw [hk]; exact_mod_cast hk0) ho b off n hh h1 h2 hp
    (by rw [hn, div_one]; exact hp)
  rw [hn, div_one] at this
  exact this

/-! ## Logarithmic adaptations -/

/-- **C79** (floor).  A logarithmic adaptation never stores less than the integer part of its floor value. -/
theorem C79_floor (lm : Libm) (t : IntType) (wf : t.WF) (a : Adaptation) (base : F64) (floor : Rat)
    (hl : a.log = some (base, .fin floor)) (b b' : Board) (off : Nat) (room : off + t.size ≤ b.length) (d : F64)
    (h : setIntDouble lm t (some a) b off d = (.ok (), b')) :
    ∃ n f, HoldsInt t b' off n ∧ IntPart floor f ∧ f ≤ n := by
  rcases setIntDouble_cases lm wf a room d with ⟨n, b'', h0, h1, h2, h3, h4, _⟩ | ⟨n, h0, h1, h2⟩ | ⟨h0, h2⟩ | ⟨h0, h2⟩
  · rw [h] at h3
    obtain rfl := (Prod.mk.inj h3).2
    refine ⟨n, ratTrunc floor, h4, ratTrunc_spec floor, ?_⟩
    unfold Adaptation.fromUser at h0
    rw [hl] at h0
    simp only at h0
    rw [Out.bind_ok] at h0
    obtain ⟨m, _, h0⟩ := h0
    rw [Out.bind_ok] at h0
    obtain ⟨f, hf, h0⟩ := h0
    have hf' : f = ratTrunc floor := by
      unfold F64.toInt64 at hf
      simp only at hf
      split at hf
      · exact (Out.ok.inj hf).symm
      · cases hf
    simp only [Out.ok.injEq] at h0
    split at h0 <;> omega
  all_goals rw [h2] at h; cases h

/-- **C79** fails for a logarithmic adaptation without a floor value: the default is minus infinity, which has no integer
part, and every set is undefined behaviour. -/
theorem C79_default_floor_undefined (lm : Libm) (t : IntType) (a : Adaptation) (base : F64) (hl : a.log = some (base, .notFinite))
    (b : Board) (off : Nat) (d : F64) : setIntDouble lm t (some a) b off d = (.abort, b) := by
  have hf : a.fromUser lm d = .abort := by
    unfold Adaptation.fromUser
    rw [hl]
    simp only
    have hne : ∀ d, a.linFrom d ≠ .err := by
      intro d h
      unfold Adaptation.linFrom at h
      cases h1 : (((d.mul (.fin a.num)).div (.fin a.den)).toInt64) with
      | err =>
        unfold F64.toInt64 at h1
        split at h1
        · split at h1 <;> cases h1
        · cases h1
      | abort => rw [h1] at h; cases h
      | ok n =>
        rw [h1] at h
        simp only [Out.bind, addInt64] at h
        split at h <;> cases h
    cases h : a.linFrom ((lm.log d).div (lm.log base)) with
    | err => exact absurd h (hne _)
    | abort => rfl
    | ok n => rfl
  unfold setIntDouble IntType.fromDouble
  simp only [hf, Out.bind]

/-- **C79** (no adaptation).  An integer parameter without an adaptation refuses real numbers, set or read. -/
theorem C79_refused (lm : Libm) (t : IntType) (b : Board) (off : Nat) (room : off + t.size ≤ b.length) (d : F64) :
    setIntDouble lm t none b off d = (.err, b) ∧ getIntDouble lm t none b off = .err := by
  refine ⟨rfl, ?_⟩
  obtain ⟨bs, hr⟩ := Board.read_some room
  unfold getIntDouble readScalar
  simp only [hr, Out.bind, IntType.toDouble]

/-! ## Documents -/

/-- **C79** (documents).  An adaptation taken from a document has the attributes of its element, a denominator that is not zero, an
offset of 32 bits, and if it is logarithmic a base that, when given, is positive and not one. -/
theorem C79_loaded (rd : Reader) (lm : Libm) (x : SXml) (a : Adaptation) (h : loadAdaptation rd lm x = .ok a) :
    RealAttr rd x (s "SlopeNumerator") (.fin 1) (.fin a.num) ∧ RealAttr rd x (s "SlopeDenominator") (.fin 1) (.fin a.den) ∧
    NumAttr x (s "Offset") 0 a.off ∧ -2 ^ 31 ≤ a.off ∧ a.off < 2 ^ 31 ∧ a.den ≠ 0 ∧
    ((x.tag = s "LinearAdaptation" ∧ a.log = none) ∨
     (x.tag = s "LogarithmicAdaptation" ∧ ∃ base floor, a.log = some (base, floor) ∧
      RealAttr rd x (s "FloorValue") .notFinite floor ∧ RealAttr rd x (s "LogarithmBase") (lm.exp (.fin 1)) base ∧
      (x.attr (s "LogarithmBase") ≠ none → ∃ q, base = .fin q ∧ 0 < q ∧ q ≠ 1))) := by
  unfold loadAdaptation at h
  split at h
  · rename_i ht
    obtain ⟨h1, h2, h3, h4, h5, h6, h7⟩ := loadLinear_ok h
    exact ⟨h1, h2, h3, h4, h5, h6, .inl ⟨ht, h7⟩⟩
  · split at h
    · rename_i ht
      rw [Out.bind_ok] at h
      obtain ⟨base, hb, h⟩ := h
      split at h
      · cases h
      · rename_i hbad
        rw [Out.bind_ok] at h
        obtain ⟨floor, hfl, h⟩ := h
        obtain ⟨h1, h2, h3, h4, h5, h6, h7⟩ := loadLinear_ok h
        refine ⟨h1, h2, h3, h4, h5, h6, .inr ⟨ht, base, floor, h7, SXml.dbl_ok hfl, SXml.dbl_ok hb, ?_⟩⟩
        intro hne
        rcases SXml.dbl_ok hb with ⟨h8, _⟩ | ⟨t, d, h8, _, h10⟩
        · exact absurd h8 hne
        · subst h10
          refine ⟨_, rfl, ?_⟩
          rw [h8] at hbad
          simp only [Option.isSome_some, true_and, F64.val, not_or, not_le] at hbad
          exact hbad
    · cases h

/-- **C79** fails for a zero numerator, which documents may have: every number is stored as the offset, and nothing finite is
ever read. -/
theorem C79_zero_numerator (lm : Libm) (t : IntType) (wf : t.WF) (a : Adaptation) (lin : a.log = none) (h0 : a.num = 0) (hd : a.den ≠ 0)
    (b : Board) (off : Nat) (room : off + t.size ≤ b.length) :
    (∀ d b', setIntDouble lm t (some a) b off (.fin d) = (.ok (), b') → HoldsInt t b' off a.off) ∧
    getIntDouble lm t (some a) b off = .ok .notFinite := by
  have hz : IsF64 (0 : Rat) := by
    have := isF64_int (n := 0) (by decide)
    rwa [Int.cast_zero] at this
  constructor
  · intro d b' h
    obtain ⟨x, y, hx, hy, -, -, hh⟩ := setIntDouble_linear wf lin hd room h
    rw [h0, mul_zero, f64Round_exact hz] at hx
    obtain rfl := F64.fin.inj hx
    rw [zero_div, f64Round_exact hz] at hy
    obtain rfl := F64.fin.inj hy
    rw [show ratTrunc 0 + a.off = a.off by rw [(ratTrunc_spec 0).unique (m := 0) (by simpa using IntPart.int 0)]; omega] at hh
    exact hh
  · obtain ⟨bs, hr⟩ := Board.read_some room
    rw [getIntDouble_holds lm wf ⟨bs, hr, rfl⟩]
    unfold Adaptation.toUser
    rw [lin]
    simp only
    unfold Adaptation.linTo
    rw [h0, F64.div_zero]

/-- **C79** fails for large numbers: with the default slope, setting a number of `2^63` or more is undefined behaviour, where it
should be refused as out of range. -/
theorem C79_large_undefined (lm : Libm) (t : IntType) (a : Adaptation) (lin : a.log = none) (hn : a.num = 1) (h1 : a.den = 1)
    (b : Board) (off : Nat) (d : Rat) (hd : IsF64 d) (hl : 2 ^ 63 ≤ d) :
    setIntDouble lm t (some a) b off (.fin d) = (.abort, b) := by
  have hf : a.fromUser lm (.fin d) = .abort := by
    unfold Adaptation.fromUser
    rw [lin]
    simp only
    have hr := f64Round_exact hd
    have h1' := h1
    rcases a.linFrom_cases (by rw [h1]; exact one_ne_zero) d with ⟨h0, h1⟩ | ⟨x, hx, ⟨h0, h1⟩ | ⟨y, hy, h1⟩⟩
    · exact h1
    · exact h1
    · rw [hn, mul_one, hr] at hx
      obtain rfl := F64.fin.inj hx
      rw [h1', div_one, hr] at hy
      obtain rfl := F64.fin.inj hy
      rcases h1 with ⟨h2, _, _⟩ | ⟨_, h1⟩
      · exfalso
        have h3 := ((ratTrunc_spec d).1 (le_trans (by positivity) hl)).2
        have h4 : ((2 ^ 63 : Int) : Rat) < ((ratTrunc d + 1 : Int) : Rat) := by
          push_cast
          exact lt_of_le_of_lt hl h3
        have h5 : (2 ^ 63 : Int) < ratTrunc d + 1 := by exact_mod_cast h4
        have := h2.2
        omega
      · exact h1
  unfold setIntDouble IntType.fromDouble
  simp only [hf, Out.bind]

end PF
