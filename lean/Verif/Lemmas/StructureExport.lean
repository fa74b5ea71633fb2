import Verif.Spec.StructureExport
import Verif.Lemmas.StructureAccept
import Verif.Lemmas.XmlSafe
import Verif.Lemmas.Float32Text

/-! # The export of structures, read back -/

namespace PF
open Spec

theorem convertTo_natText {bits n : Nat} (h : n < 2 ^ bits) : convertTo false bits (natText n) = some (n : Int) := by
  rw [convertTo_iff]
  exact ⟨.inl ⟨n, numeral_natText n, rfl⟩, by rw [if_neg (by decide)]; exact_mod_cast h⟩

theorem convertTo_intText {signed : Bool} {bits : Nat} {n : Int}
    (h : if signed then -(2 ^ (bits - 1) : Nat) ≤ n ∧ n < (2 ^ (bits - 1) : Nat) else 0 ≤ n ∧ n < (2 ^ bits : Nat)) :
    convertTo signed bits (intText n) = some n := by
  rw [convertTo_iff]
  refine ⟨?_, by cases signed <;> simp_all⟩
  unfold intText
  split
  · rename_i hn
    cases signed with
    | false => simp at h; omega
    | true => exact .inr (.inr (.inl ⟨_, n.natAbs, rfl, rfl, numeral_natText _, by omega⟩))
  · exact .inl ⟨n.natAbs, numeral_natText _, by omega⟩

theorem size_of_attr {x : SXml} {name : Str} {d n : Nat} (ha : x.attr name = some (natText n)) (hn : n < 2 ^ 64) :
    x.size name d = .ok n := by
  simp only [SXml.size, SXml.num, ha, convertTo_natText hn, Out.bind, Int.toNat_natCast]

theorem num_of_attr {x : SXml} {name : Str} {signed : Bool} {bits : Nat} {d n : Int} (ha : x.attr name = some (intText n))
    (h : if signed then -(2 ^ (bits - 1) : Nat) ≤ n ∧ n < (2 ^ (bits - 1) : Nat) else 0 ≤ n ∧ n < (2 ^ bits : Nat)) :
    x.num name signed bits d = .ok n := by
  simp only [SXml.num, ha, convertTo_intText h]

theorem num_of_nat {x : SXml} {name : Str} {bits : Nat} {d : Int} {n : Nat} (ha : x.attr name = some (natText n)) (h : n < 2 ^ bits) :
    x.num name false bits d = .ok (n : Int) := by
  simp only [SXml.num, ha, convertTo_natText h]

/-! ## Floating-point bounds -/

/-- A number of millionths as a text. -/
def millionthsText (neg : Bool) (n : Nat) : Str :=
  (if neg then ['-'] else []) ++ natText (n / 10 ^ 6) ++ '.' :: fracDigits 6 (n % 10 ^ 6)

theorem f32Fixed_eq {v : BitVec 32} (hf : F32Finite v) :
    f32Fixed v = millionthsText v.msb (roundEven (f32Mag v * 10 ^ 6) (2 ^ 149)) := by
  have hfin := (f32Finite_iff v).2 hf
  unfold f32Fixed millionthsText
  simp only [hfin, Bool.not_true, Bool.false_eq_true, if_false]

theorem millionthsText_value (neg : Bool) (n : Nat) :
    DecimalText (millionthsText neg n) (if neg then -((n : Rat) / 10 ^ 6) else (n : Rat) / 10 ^ 6) := by
  have key : ((n / 10 ^ 6 : Nat) : Rat) + ((n % 10 ^ 6 : Nat) : Rat) / ((10 ^ 6 : Nat) : Rat) = (n : Rat) / 10 ^ 6 := by
    have h := Nat.div_add_mod n (10 ^ 6)
    have h' : (n : Rat) = (10 ^ 6 : Rat) * ((n / 10 ^ 6 : Nat) : Rat) + ((n % 10 ^ 6 : Nat) : Rat) := by
      exact_mod_cast h.symm
    rw [h']
    generalize ((n / 10 ^ 6 : Nat) : Rat) = x, ((n % 10 ^ 6 : Nat) : Rat) = y
    push_cast
    field_simp
    ring
  have hd := numeral_fracDigits 5 (n % 10 ^ 6) (Nat.mod_lt _ (by decide))
  have h1 := DecimalText.frac (numeral_natText (n / 10 ^ 6)) hd.1
  have h2 := DecimalText.negFrac (numeral_natText (n / 10 ^ 6)) hd.1
  rw [hd.2, key] at h1 h2
  cases neg
  · exact h1
  · exact h2

theorem millionthsText_sign (neg : Bool) (n : Nat) : neg = true ↔ (millionthsText neg n).head? = some '-' := by
  cases neg
  · have hn := numeral_natText (n / 10 ^ 6)
    change false = true ↔ (natText (n / 10 ^ 6) ++ '.' :: fracDigits 6 (n % 10 ^ 6)).head? = some '-'
    rw [List.head?_append_of_ne_nil _ hn.chars.1]
    refine ⟨fun h => absurd h (by decide), fun h => ?_⟩
    exact absurd rfl (hn.noSpecial _ (List.mem_of_mem_head? h)).2.1
  · exact ⟨fun _ => rfl, fun _ => rfl⟩

theorem f32Fixed_sign {v : BitVec 32} (hf : F32Finite v) : v.msb = true ↔ (f32Fixed v).head? = some '-' := by
  rw [f32Fixed_eq hf]
  exact millionthsText_sign _ _

/-- The text of a bound is a decimal number that is a whole number of millionths, at most half a millionth away. -/
theorem f32Fixed_near {v : BitVec 32} (hf : F32Finite v) :
    ∃ k : Int, DecimalText (f32Fixed v) (k / 10 ^ 6) ∧ |f32Val v - k / 10 ^ 6| ≤ 1 / (2 * 10 ^ 6) := by
  have ht := millionthsText_value v.msb (roundEven (f32Mag v * 10 ^ 6) (2 ^ 149))
  rw [← f32Fixed_eq hf] at ht
  have hr := roundEven_half (f32Mag v * 10 ^ 6) (b := 2 ^ 149) (by positivity)
  generalize roundEven (f32Mag v * 10 ^ 6) (2 ^ 149) = n at *
  have hd : |(f32Mag v : Rat) / 2 ^ 149 - n / 10 ^ 6| ≤ 1 / (2 * 10 ^ 6) := by
    have e : (f32Mag v : Rat) / 2 ^ 149 - n / 10 ^ 6 = -((((n : Int) * (2 ^ 149 : Nat) - ((f32Mag v * 10 ^ 6 : Nat) : Int) : Int) : Rat)) / (2 ^ 149 * 10 ^ 6) := by
      push_cast
      field_simp
      ring
    rw [e, abs_div, abs_neg, abs_of_pos (show (0 : Rat) < 2 ^ 149 * 10 ^ 6 by positivity), div_le_div_iff₀ (by positivity) (by positivity)]
    have h2 : (2 : Rat) * |(((n : Int) * (2 ^ 149 : Nat) - ((f32Mag v * 10 ^ 6 : Nat) : Int) : Int) : Rat)| ≤ 2 ^ 149 := by
      unfold dist at hr
      rw [← Int.cast_abs, Int.abs_eq_natAbs]
      exact_mod_cast hr
    generalize |(((n : Int) * (2 ^ 149 : Nat) - ((f32Mag v * 10 ^ 6 : Nat) : Int) : Int) : Rat)| = x at *
    linarith
  have hv := f32Val_eq v
  unfold f32Units at hv
  cases hm : v.msb with
  | false =>
    refine ⟨n, by simpa [hm] using ht, ?_⟩
    rw [hv, hm]
    simpa using hd
  | true =>
    refine ⟨-n, ?_, ?_⟩
    · have : DecimalText (f32Fixed v) (-((n : Rat) / 10 ^ 6)) := by simpa [hm] using ht
      rw [show (((-(n : Int)) : Int) : Rat) / 10 ^ 6 = -((n : Rat) / 10 ^ 6) by push_cast; ring]
      exact this
    · rw [hv, hm]
      rw [show ((if true = true then -((f32Mag v : Nat) : Int) else ((f32Mag v : Nat) : Int) : Int) : Rat) / 2 ^ 149 - (((-(n : Int)) : Int) : Rat) / 10 ^ 6
        = -((f32Mag v : Rat) / 2 ^ 149 - n / 10 ^ 6) by rw [if_pos rfl]; push_cast; ring, abs_neg]
      exact hd

theorem f32Fixed_exact {v : BitVec 32} (h : Millionths v) : DecimalText (f32Fixed v) (f32Val v) := by
  obtain ⟨hf, k, hk⟩ := h
  obtain ⟨j, hj, hd⟩ := f32Fixed_near hf
  have : j = k := by
    rw [hk, ← sub_div, abs_div, abs_of_pos (show (0 : Rat) < 10 ^ 6 by positivity), div_le_div_iff₀ (by positivity) (by positivity),
      ← Int.cast_sub, ← Int.cast_abs] at hd
    have h1 : (((|k - j| : Int)) : Rat) * 2 ≤ 1 := by linarith
    have h2 : |k - j| * 2 ≤ 1 := by exact_mod_cast h1
    have h3 := abs_nonneg (k - j)
    have h4 : |k - j| = 0 := by omega
    rw [abs_eq_zero] at h4
    omega
  rw [hk, ← this]
  exact hj

/-- A bound that is a whole number of millionths is read back. -/
theorem flt_of_attr {rd : Reader} (hrd : ReadsDecimals rd) {x : SXml} {name : Str} {v d : BitVec 32} (h : Millionths v)
    (ha : x.attr name = some (f32Fixed v)) : x.flt rd name d = .ok v := by
  obtain ⟨w, hw, hn, hs⟩ := hrd.flt _ _ (.plain (f32Fixed_exact h)) (f32Val_abs_le h.1)
  have hself : Nearest (f32Val v) v := ⟨h.1, fun u _ => by rw [sub_self, abs_zero]; exact abs_nonneg _, fun u _ e ne => by
    rw [sub_self, abs_zero, abs_eq_zero, sub_eq_zero] at e
    exact absurd e ne⟩
  have hb : v.msb = w.msb := by
    exact Bool.eq_iff_iff.2 ((f32Fixed_sign h.1).trans hs.symm)
  have e := hself.unique hn hb
  subst e
  simp only [SXml.flt, ha, hw, (f32Finite_iff v).2 h.1, if_true]

/-! ## Attributes -/

theorem attr_cons (tag : Str) (a v : Str) (r : List (Str × Str)) (cs : List SXml) (name : Str) :
    (SXml.mk tag ((a, v) :: r) cs).attr name = if a = name then some v else (SXml.mk tag r cs).attr name := by
  unfold SXml.attr SXml.attrs
  by_cases h : a = name
  · simp [h]
  · simp [h]

theorem attr_nil (tag : Str) (cs : List SXml) (name : Str) : (SXml.mk tag [] cs).attr name = none := rfl

theorem attr_skip {tag tag' : Str} {A R : List (Str × Str)} {cs cs' : List SXml} {name : Str} (h : ∀ a ∈ A, a.1 ≠ name) :
    (SXml.mk tag (A ++ R) cs).attr name = (SXml.mk tag' R cs').attr name := by
  induction A with
  | nil => rfl
  | cons a A ih =>
    rw [List.cons_append, attr_cons, if_neg (h a List.mem_cons_self)]
    exact ih fun b hb => h b (List.mem_cons_of_mem _ hb)

theorem nameAttr_declNameAttrs (tag n : Str) (cs : List SXml) : (SXml.mk tag (declNameAttrs n) cs).nameAttr = n := by
  unfold declNameAttrs SXml.nameAttr
  split
  · rename_i h; rw [h]; rfl
  · rw [attr_cons, if_pos rfl]; rfl

theorem attr_declNameAttrs {tag n : Str} {cs : List SXml} {name : Str} (h : name ≠ s "Name") :
    (SXml.mk tag (declNameAttrs n) cs).attr name = none := by
  unfold declNameAttrs
  split
  · rfl
  · rw [attr_cons, if_neg (Ne.symm h)]; rfl

/-- The names of the attributes of a type. -/
theorem ScalarType.xmlAttrs_names (t : ScalarType) : ∀ a ∈ t.xmlAttrs, a.1 ∈ [s "Signed", s "Min", s "Max", s "Size", s "Integral", s "Fractional"] := by
  cases t <;> simp [ScalarType.xmlAttrs]

theorem ScalarType.attr_skip (t : ScalarType) {tag tag' : Str} {R : List (Str × Str)} {cs cs' : List SXml} {name : Str}
    (h : name ∉ [s "Signed", s "Min", s "Max", s "Size", s "Integral", s "Fractional"]) :
    (SXml.mk tag (t.xmlAttrs ++ R) cs).attr name = (SXml.mk tag' R cs').attr name :=
  PF.attr_skip fun a ha e => h (e ▸ t.xmlAttrs_names a ha)

/-- The attributes of an array. -/
def lenAttrs (len : Nat) : List (Str × Str) := if len = 0 then [] else [(s "ArrayLength", natText len)]

theorem scalar_typeAttrs (t : ScalarType) (tag n : Str) {len : Nat} (hl : len < 2 ^ 64) (cs : List SXml) :
    typeAttrs (.mk tag (t.xmlAttrs ++ (lenAttrs len ++ declNameAttrs n)) cs) = .ok (len, none) := by
  have hm : (SXml.mk tag (t.xmlAttrs ++ (lenAttrs len ++ declNameAttrs n)) cs).attr (s "Mapping") = none := by
    rw [t.attr_skip (tag' := tag) (cs' := cs) (by decide)]
    unfold lenAttrs
    split
    · exact attr_declNameAttrs (by decide)
    · rw [List.cons_append, attr_cons, if_neg (by decide)]; exact attr_declNameAttrs (by decide)
  have hs : (SXml.mk tag (t.xmlAttrs ++ (lenAttrs len ++ declNameAttrs n)) cs).size (s "ArrayLength") 0 = .ok len := by
    have ha := t.attr_skip (tag := tag) (tag' := tag) (cs := cs) (cs' := cs) (R := lenAttrs len ++ declNameAttrs n) (name := s "ArrayLength") (by decide)
    unfold lenAttrs at *
    split at ha
    · rename_i h
      rw [List.nil_append, attr_declNameAttrs (by decide)] at ha
      simp only [h, if_true, List.nil_append] at ha ⊢
      simp only [SXml.size, SXml.num, ha, Out.bind]
      rfl
    · rename_i h
      rw [List.cons_append, attr_cons, if_pos rfl] at ha
      exact size_of_attr (by rw [if_neg h]; exact ha) hl
  unfold typeAttrs
  rw [hs]
  simp only [Out.bind, hm]

theorem scalar_nameAttr (t : ScalarType) (tag n : Str) (len : Nat) (cs : List SXml) :
    (SXml.mk tag (t.xmlAttrs ++ (lenAttrs len ++ declNameAttrs n)) cs).nameAttr = n := by
  unfold SXml.nameAttr
  rw [t.attr_skip (tag' := tag) (cs' := cs) (by decide)]
  unfold lenAttrs
  split
  · exact nameAttr_declNameAttrs tag n cs
  · rw [List.cons_append, attr_cons, if_neg (by decide)]; exact nameAttr_declNameAttrs tag n cs

/-! ## The types -/

theorem loadInt_xml {t : IntType} (wf : t.WF) (tag : Str) (R : List (Str × Str)) (cs : List SXml) :
    loadInt (.mk tag ((ScalarType.int t).xmlAttrs ++ R) cs) = .ok t := by
  obtain ⟨signed, size, lo, hi⟩ := t
  obtain ⟨hsz, hord, hlow, hhigh⟩ := wf
  simp only [IntType.bits] at *
  unfold loadInt
  rw [size_of_attr (n := size * 8) (by simp only [ScalarType.xmlAttrs, List.cons_append, attr_cons]; rfl) (by omega)]
  simp only [Out.bind]
  have hsg : (SXml.mk tag ((ScalarType.int ⟨signed, size, lo, hi⟩).xmlAttrs ++ R) cs).attr (s "Signed") =
      some (if signed then s "true" else s "false") := by
    simp only [ScalarType.xmlAttrs, List.cons_append, attr_cons]; rfl
  rw [hsg]
  have hb : convertBool (if signed then s "true" else s "false") = some signed := by cases signed <;> rfl
  simp only [hb]
  rw [if_pos (by omega)]
  have e : size * 8 = 8 * size := Nat.mul_comm _ _
  rw [num_of_attr (n := lo) (by simp only [ScalarType.xmlAttrs, List.cons_append, attr_cons]; rfl)
    (by rw [e]; cases signed <;> simp at hlow hhigh ⊢ <;> omega)]
  simp only
  rw [num_of_attr (n := hi) (by simp only [ScalarType.xmlAttrs, List.cons_append, attr_cons]; rfl)
    (by rw [e]; cases signed <;> simp at hlow hhigh ⊢ <;> omega)]
  simp only
  rw [if_neg (by omega), Nat.mul_div_cancel _ (by decide)]

theorem loadFixed_xml {t : FixedType} (wf : t.WF) (tag : Str) (R : List (Str × Str)) (cs : List SXml) :
    loadFixed (.mk tag ((ScalarType.fixed t).xmlAttrs ++ R) cs) = .ok t := by
  obtain ⟨size, i, f⟩ := t
  obtain ⟨hsz, hfit⟩ := wf
  simp only at *
  unfold loadFixed
  rw [size_of_attr (n := size * 8) (by simp only [ScalarType.xmlAttrs, List.cons_append, attr_cons]; rfl) (by omega)]
  simp only [Out.bind]
  rw [num_of_nat (n := i) (by simp only [ScalarType.xmlAttrs, List.cons_append, attr_cons]; rfl) (by omega)]
  simp only
  rw [num_of_nat (n := f) (by simp only [ScalarType.xmlAttrs, List.cons_append, attr_cons]; rfl) (by omega)]
  simp only [Int.toNat_natCast]
  rw [if_neg (by omega), Nat.mul_div_cancel _ (by decide)]

theorem loadFloat_xml {rd : Reader} (hrd : ReadsDecimals rd) {t : FloatType} (wf : FloatWF t) (h : Millionths t.min ∧ Millionths t.max)
    (tag : Str) (R : List (Str × Str)) (cs : List SXml) :
    loadFloat rd (.mk tag ((ScalarType.float t).xmlAttrs ++ R) cs) = .ok t := by
  obtain ⟨lo, hi⟩ := t
  unfold loadFloat
  rw [size_of_attr (n := 32) (by simp only [ScalarType.xmlAttrs, List.cons_append, attr_cons]; rfl) (by decide)]
  simp only [Out.bind]
  rw [if_neg (by decide), flt_of_attr hrd h.1 (by simp only [ScalarType.xmlAttrs, List.cons_append, attr_cons]; rfl)]
  simp only
  rw [flt_of_attr hrd h.2 (by simp only [ScalarType.xmlAttrs, List.cons_append, attr_cons]; rfl)]
  simp only
  have := (f32Val_le _ _).1 wf.order
  simp only at this
  rw [if_neg (by omega)]

theorem pairs_xml (rd : Reader) (types : List Str) (ps : List (Str × BitVec 32)) :
    loadElems rd types .other (ps.map pairXml) = .ok (ps.map fun p => .mk p.1 (.pair p.2) 0 none []) := by
  induction ps with
  | nil => rfl
  | cons p ps ih =>
    rw [List.map_cons, List.map_cons, loadElems, ih]
    have : loadElem rd types .other (pairXml p) = .ok (.mk p.1 (.pair p.2) 0 none []) := by
      unfold pairXml
      unfold loadElem
      simp (decide := true) only [if_true, if_false]
      rw [num_of_attr (n := p.2.toInt) (by simp only [attr_cons]; rfl)
        (by have := BitVec.toInt_lt (x := p.2); have := BitVec.le_toInt (x := p.2); simp at *; omega)]
      simp only [Out.bind, noChildren, attr_cons, if_true, Option.getD_some, BitVec.ofInt_toInt]
    rw [this]
    rfl

theorem enumPairs_xml (ps : List (Str × BitVec 32)) : enumPairs (ps.map fun p => .mk p.1 (.pair p.2) 0 none []) = .ok ps := by
  induction ps with
  | nil => rfl
  | cons p ps ih => rw [List.map_cons, enumPairs, ih]; rfl

/-- The export of a parameter is loaded. -/
theorem load_scalar {rd : Reader} (hrd : ReadsDecimals rd) (types : List Str) (par : Par) {t : ScalarType} (ok : TypeOk t)
    (hf : ∀ f, t = .float f → Millionths f.min ∧ Millionths f.max) (n : Str) {len : Nat} (hl : len < 2 ^ 64) :
    loadElem rd types par (.mk t.kindText (t.xmlAttrs ++ (lenAttrs len ++ declNameAttrs n)) t.xmlChildren) =
      .ok (.mk n (.scalar t) len none []) := by
  have ht := fun tag cs => scalar_typeAttrs t tag n hl cs
  have hn := fun tag cs => scalar_nameAttr t tag n len cs
  unfold loadElem
  cases t with
  | bool =>
    simp (decide := true) only [ScalarType.kindText, if_true, if_false, ht, hn, Out.bind, ScalarType.xmlChildren, noChildren]
  | int t =>
    simp (decide := true) only [ScalarType.kindText, if_true, if_false, ht, hn, Out.bind, ScalarType.xmlChildren, loadElems, loadInt_xml ok]
  | enum t =>
    have ha : ∀ tag cs, (SXml.mk tag ((ScalarType.enum t).xmlAttrs ++ (lenAttrs len ++ declNameAttrs n)) cs).attr (s "Size") = some (natText (t.size * 8)) := by
      intro tag cs
      simp only [ScalarType.xmlAttrs, List.cons_append, attr_cons]; rfl
    have hs : ∀ tag cs, (SXml.mk tag ((ScalarType.enum t).xmlAttrs ++ (lenAttrs len ++ declNameAttrs n)) cs).size (s "Size") 0 = .ok (t.size * 8) := by
      intro tag cs
      exact size_of_attr (ha tag cs) (by unfold TypeOk at ok; omega)
    simp (decide := true) only [ScalarType.kindText, if_true, if_false, ht, hn, ha, hs, Out.bind, ScalarType.xmlChildren, pairs_xml, enumPairs_xml,
      Nat.mul_div_cancel]
  | fixed t =>
    simp (decide := true) only [ScalarType.kindText, if_true, if_false, ht, hn, Out.bind, ScalarType.xmlChildren, noChildren, loadFixed_xml ok]
  | float t =>
    simp (decide := true) only [ScalarType.kindText, if_true, if_false, ht, hn, Out.bind, ScalarType.xmlChildren, noChildren,
      loadFloat_xml hrd ok (hf t rfl)]

theorem load_string (rd : Reader) (types : List Str) (par : Par) {m : Nat} (hm : m < 2 ^ 64) (n : Str) :
    loadElem rd types par (.mk (s "StringParameter") ([(s "MaxLength", natText m)] ++ declNameAttrs n) []) = .ok (.mk n (.string m) 0 none []) := by
  have hs : (SXml.mk (s "StringParameter") ([(s "MaxLength", natText m)] ++ declNameAttrs n) []).size (s "MaxLength") 0 = .ok m :=
    size_of_attr (by rw [List.cons_append, attr_cons, if_pos rfl]) hm
  have ht : typeAttrs (SXml.mk (s "StringParameter") ([(s "MaxLength", natText m)] ++ declNameAttrs n) []) = .ok (0, none) := by
    unfold typeAttrs SXml.size SXml.num
    rw [List.cons_append, attr_cons, if_neg (by decide), attr_cons, if_neg (by decide), List.nil_append, attr_declNameAttrs (by decide),
      attr_declNameAttrs (by decide)]
    rfl
  have hn : (SXml.mk (s "StringParameter") ([(s "MaxLength", natText m)] ++ declNameAttrs n) []).nameAttr = n := by
    unfold SXml.nameAttr
    rw [List.cons_append, attr_cons, if_neg (by decide), List.nil_append]
    exact nameAttr_declNameAttrs _ n _
  unfold loadElem
  simp (decide := true) only [if_true, if_false, hs, ht, hn, Out.bind, noChildren]

theorem typeAttrs_declNameAttrs (tag n : Str) (cs : List SXml) : typeAttrs (.mk tag (declNameAttrs n) cs) = .ok (0, none) := by
  unfold typeAttrs SXml.size SXml.num
  rw [attr_declNameAttrs (by decide), attr_declNameAttrs (by decide)]
  rfl

theorem load_block (rd : Reader) (types : List Str) (par : Par) (n : Str) (cs : List SXml) :
    loadElem rd types par (.mk (s "ParameterBlock") (declNameAttrs n) cs) =
      (loadElems rd types .other cs).bind fun ts => .ok (.mk n .block 0 none ts) := by
  rw [loadElem.eq_def]
  simp (decide := true) only [if_true, if_false, typeAttrs_declNameAttrs, nameAttr_declNameAttrs, Out.bind]

/-- The export of an element is loaded, and gives the element back. -/
theorem export_loads {rd : Reader} (hrd : ReadsDecimals rd) {el : Elem} (wf : el.WF) :
    (∀ p e, el.at? p = some e → Exportable e.kind) → TypesOk el → ∀ types par,
    ∃ t, loadElem rd types par el.structureXml = .ok t ∧
      ∀ lib tc, ∃ i, instElem lib tc t = some (.ok i) ∧ i.elem = plain el := by
  induction wf with
  | @group n k sy cs hcs hb ih =>
    intro hx ht types par
    have hk := hx [] _ rfl
    have htag : (EKind.group k).xmlTag = s "ParameterBlock" := by
      unfold Exportable at hk
      simp only [EKind.xmlTag, EKind.text, Elem.kind] at hk ⊢
      rcases hk with h | h
      · rw [h]; rfl
      · rw [h]; rfl
    have hch : ∀ c ∈ cs, (∀ p e, c.at? p = some e → Exportable e.kind) ∧ TypesOk c := by
      intro c hc
      obtain ⟨j, hj⟩ := List.getElem?_of_mem hc
      have key : ∀ p, (Elem.mk n (.group k) sy cs).at? (j :: p) = c.at? p := by
        intro p
        simp [Elem.at?, hj]
      exact ⟨fun p e he => hx (j :: p) e (by rw [key, he]), fun p e t he => ht (j :: p) e t (by rw [key, he])⟩
    have hl : ∀ ds : List Elem, (∀ d ∈ ds, d ∈ cs) → ∃ ts, loadElems rd types .other (Elem.structureXmls ds) = .ok ts ∧
        ∀ lib tc, ∃ is, instElems lib tc ts = some (.ok is) ∧ IElem.elems is = plains ds := by
      intro ds
      induction ds with
      | nil => intro _; exact ⟨[], rfl, fun lib tc => ⟨[], rfl, rfl⟩⟩
      | cons d ds ih2 =>
        intro hd
        have hdm := hd d List.mem_cons_self
        obtain ⟨t, h1, h2⟩ := ih d hdm (hch d hdm).1 (hch d hdm).2 types .other
        obtain ⟨ts, h3, h4⟩ := ih2 fun x hx => hd x (List.mem_cons_of_mem _ hx)
        refine ⟨t :: ts, by rw [Elem.structureXmls, loadElems, h1, h3]; rfl, fun lib tc => ?_⟩
        obtain ⟨i, h5, h6⟩ := h2 lib tc
        obtain ⟨is, h7, h8⟩ := h4 lib tc
        exact ⟨i :: is, by rw [instElems, h5, h7]; rfl, by rw [IElem.elems, plains, h6, h8]⟩
    obtain ⟨ts, h1, h2⟩ := hl cs fun _ h => h
    refine ⟨.mk n .block 0 none ts, ?_, fun lib tc => ?_⟩
    · rw [Elem.structureXml, htag]
      change loadElem rd types par (.mk (s "ParameterBlock") (declNameAttrs n) (Elem.structureXmls cs)) = _
      rw [load_block, h1]
      rfl
    · obtain ⟨is, h3, h4⟩ := h2 lib tc
      refine ⟨.mk n (.group (s "ParameterBlock")) [] is, by rw [instElem, h3]; rfl, ?_⟩
      rw [IElem.elem, plain, h4]
      rfl
  | bitBlock hs hc => intro hx; exact absurd (hx [] _ rfl) id
  | @scalar n t sy hs =>
    intro hx ht types par
    have hk := hx [] _ rfl
    have ok := ht [] _ t rfl (.inl rfl)
    have htag : (EKind.scalar t).xmlTag = t.kindText := by cases t <;> rfl
    refine ⟨.mk n (.scalar t) 0 none [], ?_, fun lib tc => ⟨.mk n (.scalar t) [] [], by rw [instElem]; rfl, rfl⟩⟩
    have := load_scalar hrd types par ok hk n (len := 0) (by decide)
    rw [Elem.structureXml, htag, Elem.structureXmls, List.append_nil]
    exact this
  | @array n t sy hs =>
    intro hx ht types par
    obtain ⟨hlen, hk⟩ := hx [] _ rfl
    have ok := ht [] _ t.elem rfl (.inr ⟨t.length, rfl⟩)
    have htag : (EKind.array t).xmlTag = t.elem.kindText := by
      obtain ⟨u, len⟩ := t
      cases u <;> rfl
    have h := load_scalar hrd types par ok hk n hlen.2
    refine ⟨.mk n (.scalar t.elem) t.length none [], ?_, fun lib tc => ⟨.mk n (.array t) [] [], ?_, rfl⟩⟩
    · rw [Elem.structureXml, htag, Elem.structureXmls, List.append_nil]
      have e : (EKind.array t).xmlAttrs ++ declNameAttrs n = t.elem.xmlAttrs ++ (lenAttrs t.length ++ declNameAttrs n) := by
        unfold lenAttrs
        rw [if_neg (by omega)]
        simp [EKind.xmlAttrs]
      rw [e]
      exact h
    · simp only [instElem]
      rw [if_neg (by omega)]
      rfl
  | @string n m sy =>
    intro hx ht types par
    have hk := hx [] _ rfl
    refine ⟨.mk n (.string m) 0 none [], ?_, fun lib tc => ⟨.mk n (.string m) [] [], by rw [instElem]; rfl, rfl⟩⟩
    exact load_string rd types par hk n

theorem exports_load {rd : Reader} (hrd : ReadsDecimals rd) {types : List Str} {par : Par} : ∀ {els : List Elem},
    (∀ el ∈ els, el.WF ∧ (∀ p e, el.at? p = some e → Exportable e.kind) ∧ TypesOk el) →
    ∃ ts, loadElems rd types par (els.map Elem.structureXml) = .ok ts ∧
      ∀ lib tc, ∃ is, instElems lib tc ts = some (.ok is) ∧ IElem.elems is = els.map plain
  | [], _ => ⟨[], rfl, fun _ _ => ⟨[], rfl, rfl⟩⟩
  | el :: els, h => by
    obtain ⟨h1, h2, h3⟩ := h el List.mem_cons_self
    obtain ⟨t, h4, h5⟩ := export_loads hrd h1 h2 h3 types par
    obtain ⟨ts, h6, h7⟩ := exports_load hrd (types := types) (par := par) fun x hx => h x (List.mem_cons_of_mem el hx)
    refine ⟨t :: ts, by rw [List.map_cons, loadElems, h4, h6]; rfl, fun lib tc => ?_⟩
    obtain ⟨i, h8, h9⟩ := h5 lib tc
    obtain ⟨is, h10, h11⟩ := h7 lib tc
    exact ⟨i :: is, by rw [instElems, h8, h10]; rfl, by rw [IElem.elems, List.map_cons, h9, h11]⟩

theorem loadInstances_declaring (rd : Reader) (fuel : Nat) (name type : Str) (xs : List SXml) :
    loadInstances rd fuel (declaring name type xs) =
      Run.bind (some (loadElems rd [] .other xs)) fun ts =>
        Run.bind (instElems [] (typeContent [] fuel) ts) fun is => some (.ok (.mk name (.group (s "Subsystem")) [] is)) := by
  have : loadDeclarations rd (declaring name type xs) = (loadElems rd [] .other xs).bind fun ts => .ok (none, [], ts) := rfl
  unfold loadInstances
  rw [this]
  cases loadElems rd [] .other xs <;> rfl

/-! ## What the export says -/

theorem plainInt_intText (n : Int) : PlainInt (intText n) n := by
  unfold intText
  split
  · have := PlainInt.minus (numeral_natText n.natAbs)
    rwa [show -((n.natAbs : Nat) : Int) = n by omega] at this
  · have := PlainInt.dec (numeral_natText n.natAbs)
    rwa [show ((n.natAbs : Nat) : Int) = n by omega] at this

theorem numAttr_nat {x : SXml} {name : Str} {d : Int} {n : Nat} (h : x.attr name = some (natText n)) : NumAttr x name d n :=
  .inr ⟨_, h, .dec (numeral_natText n)⟩

theorem numAttr_int {x : SXml} {name : Str} {d n : Int} (h : x.attr name = some (intText n)) : NumAttr x name d n :=
  .inr ⟨_, h, plainInt_intText n⟩

theorem pairs_map (ps : List (Str × BitVec 32)) : Pairs (ps.map pairXml) ps := by
  induction ps with
  | nil => exact .nil
  | cons p ps ih =>
    have h : NumAttr (pairXml p) (s "Numerical") 0 p.2.toInt := numAttr_int (by unfold pairXml; simp only [attr_cons]; rfl)
    have hf : FitsSigned 4 p.2.toInt := by
      have := BitVec.toInt_lt (x := p.2); have := BitVec.le_toInt (x := p.2)
      unfold FitsSigned
      simp at *
      omega
    have := Pairs.cons (x := pairXml p) rfl h hf ih
    rw [BitVec.ofInt_toInt] at this
    exact this

theorem declaresType {t : ScalarType} (ok : TypeOk t) (R : List (Str × Str)) :
    DeclaresType (.mk t.kindText (t.xmlAttrs ++ R) t.xmlChildren) t := by
  cases t with
  | bool => exact fun rd => .bool rfl
  | int t =>
    intro rd
    obtain ⟨signed, size, lo, hi⟩ := t
    obtain ⟨h1, h2, h3, h4⟩ := ok
    simp only [IntType.bits] at *
    refine .int rfl ?_ h1 ?_ (numAttr_int ?_) ?_ (numAttr_int ?_) ?_ h2
    · rw [show (8 * (size : Int)) = ((size * 8 : Nat) : Int) by push_cast; ring]
      exact numAttr_nat (by simp only [ScalarType.xmlAttrs, List.cons_append, attr_cons]; rfl)
    · cases signed
      · exact .inr (.inl ⟨s "false", by simp only [ScalarType.xmlAttrs, List.cons_append, attr_cons]; rfl, by decide, rfl⟩)
      · exact .inr (.inr ⟨s "true", by simp only [ScalarType.xmlAttrs, List.cons_append, attr_cons]; rfl, by decide, rfl⟩)
    · simp only [ScalarType.xmlAttrs, List.cons_append, attr_cons]; rfl
    · unfold lowest; cases signed <;> simpa using h3
    · simp only [ScalarType.xmlAttrs, List.cons_append, attr_cons]; rfl
    · unfold highest; cases signed <;> simp at h4 ⊢ <;> omega
  | enum t =>
    intro rd
    obtain ⟨size, ps⟩ := t
    have h : (SXml.mk (ScalarType.enum ⟨size, ps⟩).kindText ((ScalarType.enum ⟨size, ps⟩).xmlAttrs ++ R) (ScalarType.enum ⟨size, ps⟩).xmlChildren).attr
        (s "Size") = some (natText (size * 8)) := by
      simp only [ScalarType.xmlAttrs, List.cons_append, attr_cons]; rfl
    have := Scalar.enum (rd := rd) (x := SXml.mk (ScalarType.enum ⟨size, ps⟩).kindText ((ScalarType.enum ⟨size, ps⟩).xmlAttrs ++ R)
      (ScalarType.enum ⟨size, ps⟩).xmlChildren) rfl (by rw [h]; simp) (numAttr_nat h) (pairs_map ps)
    rwa [Nat.mul_div_cancel _ (by decide)] at this
  | fixed t =>
    intro rd
    obtain ⟨size, i, f⟩ := t
    obtain ⟨h1, h2⟩ := ok
    simp only at *
    have := Scalar.fixed (rd := rd) (x := SXml.mk (ScalarType.fixed ⟨size, i, f⟩).kindText ((ScalarType.fixed ⟨size, i, f⟩).xmlAttrs ++ R)
      (ScalarType.fixed ⟨size, i, f⟩).xmlChildren) (bits := size * 8) (i := i) (f := f) rfl
      (numAttr_nat (by simp only [ScalarType.xmlAttrs, List.cons_append, attr_cons]; rfl))
      (numAttr_nat (by simp only [ScalarType.xmlAttrs, List.cons_append, attr_cons]; rfl))
      (numAttr_nat (by simp only [ScalarType.xmlAttrs, List.cons_append, attr_cons]; rfl)) (by omega) (by omega) (by omega)
    rwa [Nat.mul_div_cancel _ (by decide)] at this
  | float t =>
    obtain ⟨k, h1, h2⟩ := f32Fixed_near ok.min
    obtain ⟨j, h3, h4⟩ := f32Fixed_near ok.max
    refine ⟨rfl, numAttr_nat (n := 32) ?_, ⟨_, _, ?_, h1, h2⟩, ⟨_, _, ?_, h3, h4⟩⟩
    all_goals simp only [ScalarType.xmlAttrs, List.cons_append, attr_cons]; rfl

theorem EKind.attr_name (k : EKind) (tag n : Str) (cs : List SXml) : (SXml.mk tag (k.xmlAttrs ++ declNameAttrs n) cs).nameAttr = n := by
  have key : ∀ A : List (Str × Str), (∀ a ∈ A, a.1 ≠ s "Name") → (SXml.mk tag (A ++ declNameAttrs n) cs).nameAttr = n := by
    intro A h
    unfold SXml.nameAttr
    rw [attr_skip (tag' := tag) (cs' := cs) h]
    exact nameAttr_declNameAttrs tag n cs
  have sc : ∀ t : ScalarType, ∀ a ∈ t.xmlAttrs, a.1 ≠ s "Name" := by
    intro t a ha e
    have := t.xmlAttrs_names a ha
    rw [e] at this
    exact absurd this (by decide)
  apply key
  cases k with
  | group k => simp [EKind.xmlAttrs]
  | bitBlock m => simp [EKind.xmlAttrs]
  | scalar t => exact sc t
  | array t =>
    intro a ha
    simp only [EKind.xmlAttrs, List.mem_append, List.mem_singleton] at ha
    rcases ha with ha | rfl
    · exact sc _ a ha
    · exact (by decide : s "ArrayLength" ≠ s "Name")
  | string m => simp (decide := true) [EKind.xmlAttrs]
  | bit t => simp (decide := true) [EKind.xmlAttrs]

theorem kindText_ne (t : ScalarType) : t.kindText ≠ s "ComponentInstance" := by
  unfold ScalarType.kindText
  cases t <;> simp only <;> decide

/-- The export of an element declares its kind. -/
theorem declaresKind {k : EKind} (n : Str) (ok : ∀ t, k = .scalar t ∨ (∃ m, k = .array ⟨t, m⟩) → TypeOk t) (okb : ∀ t, k = .bit t → t.WF)
    (cs : List SXml) (hcs : (∃ t, k = .scalar t ∨ ∃ m, k = .array ⟨t, m⟩) → cs = []) :
    DeclaresKind (.mk k.xmlTag (k.xmlAttrs ++ declNameAttrs n) (k.xmlChildren ++ cs)) k := by
  cases k with
  | group k => rfl
  | bitBlock m => rfl
  | scalar t =>
    rw [hcs ⟨t, .inl rfl⟩, List.append_nil]
    have ht : (EKind.scalar t).xmlTag = t.kindText := if_neg (kindText_ne t)
    rw [ht]
    refine ⟨declaresType (ok t (.inl rfl)) _, ?_⟩
    exact (t.attr_skip (tag' := []) (cs' := []) (by decide)).trans (attr_declNameAttrs (by decide))
  | array t =>
    obtain ⟨t, m⟩ := t
    rw [hcs ⟨t, .inr ⟨m, rfl⟩⟩, List.append_nil]
    have ht : (EKind.array ⟨t, m⟩).xmlTag = t.kindText := if_neg (kindText_ne t)
    rw [ht]
    have e : (EKind.array ⟨t, m⟩).xmlAttrs ++ declNameAttrs n = t.xmlAttrs ++ ([(s "ArrayLength", natText m)] ++ declNameAttrs n) := by
      simp [EKind.xmlAttrs]
    rw [e]
    refine ⟨declaresType (ok t (.inr ⟨m, rfl⟩)) _, numAttr_nat ?_⟩
    rw [t.attr_skip (tag' := []) (cs' := []) (by decide), List.cons_append, attr_cons, if_pos rfl]
  | string m => exact ⟨rfl, numAttr_nat (by simp only [EKind.xmlAttrs, List.cons_append, attr_cons]; rfl)⟩
  | bit t =>
    obtain ⟨size, pos, bits, m⟩ := t
    obtain ⟨h1, h2, h3, h4⟩ := okb _ rfl
    simp only at *
    have := Bits.mk (size := size) (x := .mk (EKind.bit ⟨size, pos, bits, m⟩).xmlTag ((EKind.bit ⟨size, pos, bits, m⟩).xmlAttrs ++ declNameAttrs n)
      ((EKind.bit ⟨size, pos, bits, m⟩).xmlChildren ++ cs)) (pos := pos) (bits := bits) (m := m.toNat) rfl
      (numAttr_nat (by simp only [EKind.xmlAttrs, List.cons_append, attr_cons]; rfl))
      (numAttr_nat (by simp only [EKind.xmlAttrs, List.cons_append, attr_cons]; rfl)) h1 (by omega) (by omega) (by omega)
      (numAttr_nat (by simp only [EKind.xmlAttrs, List.cons_append, attr_cons]; rfl)) (by omega)
    rwa [BitVec.ofNat_toNat, BitVec.setWidth_eq] at this

theorem structureXmls_getElem? (cs : List Elem) (i : Nat) : (Elem.structureXmls cs)[i]? = (cs[i]?).map Elem.structureXml := by
  induction cs generalizing i with
  | nil => rfl
  | cons c cs ih =>
    rw [Elem.structureXmls]
    cases i with
    | zero => rfl
    | succ i => simpa using ih i

theorem structureXmls_length (cs : List Elem) : (Elem.structureXmls cs).length = cs.length := by
  induction cs with
  | nil => rfl
  | cons c cs ih => rw [Elem.structureXmls, List.length_cons, List.length_cons, ih]

/-- An element of a structure. -/
def InStructure (e : Elem) : Prop := e.WF ∨ ∃ n t cy, e = .mk n (.bit t) cy [] ∧ t.WF

theorem InStructure.params {e : Elem} (h : InStructure e) (hk : ∀ k, e.kind ≠ .group k) (hb : ∀ m, e.kind ≠ .bitBlock m) : e.children = [] := by
  rcases h with h | ⟨n, t, cy, rfl, -⟩
  · cases h with
    | group _ _ => exact absurd rfl (hk _)
    | bitBlock _ _ => exact absurd rfl (hb _)
    | scalar _ => rfl
    | array _ => rfl
    | string => rfl
  · rfl

theorem InStructure.child {e c : Elem} (h : InStructure e) (hc : c ∈ e.children) : InStructure c ∧ e.kind.xmlChildren = [] := by
  rcases h with h | ⟨n, t, cy, rfl, -⟩
  · cases h with
    | group h1 h2 => exact ⟨.inl (h1 c hc), rfl⟩
    | bitBlock h1 h2 =>
      obtain ⟨nm, t, cy, rfl, wf, -⟩ := h2 c hc
      exact ⟨.inr ⟨nm, t, cy, rfl, wf⟩, rfl⟩
    | scalar _ => simp [Elem.children] at hc
    | array _ => simp [Elem.children] at hc
    | string => simp [Elem.children] at hc
  · simp [Elem.children] at hc

theorem node_export : ∀ (p : Pos) {el e : Elem}, InStructure el → el.at? p = some e → NodeIn el.structureXml p e.structureXml ∧ InStructure e
  | [], el, e, h, he => by
    simp only [Elem.at?, Option.some.injEq] at he
    subst he
    exact ⟨.here, h⟩
  | i :: p, el, e, h, he => by
    rw [Elem.at?_cons] at he
    cases hc : el.children[i]? with
    | none => rw [hc] at he; simp at he
    | some c =>
      rw [hc] at he
      obtain ⟨h1, h2⟩ := h.child (List.mem_of_getElem? hc)
      obtain ⟨h3, h4⟩ := node_export p h1 he
      refine ⟨.child ?_ h3, h4⟩
      obtain ⟨n, k, sy, cs⟩ := el
      simp only [Elem.structureXml, SXml.children]
      rw [show k.xmlChildren = [] from h2, List.nil_append, structureXmls_getElem?]
      change cs[i]? = some c at hc
      rw [hc]
      rfl

end PF
