import Verif.Spec.StructureAccept
import Verif.Lemmas.StructureWF

/-! # Lemmas on accepted structure documents -/

namespace PF
open PF.Spec

variable {rd : Reader}

theorem Spec.UnsignedText.plain {t : Str} {n : Nat} (h : UnsignedText t n) : PlainInt t n := by
  cases h with
  | dec h => exact .dec h
  | plus h => exact .plus h
  | hex h => exact .hex h

theorem Spec.UnsignedText.convert {t : Str} {n bits : Nat} (h : UnsignedText t n) (hb : n < 2 ^ bits) :
    convertTo false bits t = some (n : Int) := by
  rw [convertTo_iff]
  refine ⟨?_, by simp only [Bool.false_eq_true, if_false]; omega⟩
  cases h with
  | dec h => exact .inl ⟨_, h, rfl⟩
  | plus h => exact .inr (.inl ⟨_, _, rfl, h, rfl⟩)
  | hex h => exact .inr (.inr (.inr ⟨_, _, rfl, h, rfl⟩))

theorem PlainInt.convertTo {t : Str} {n : Int} {bits : Nat} (h : PlainInt t n)
    (hb : -(2 ^ (bits - 1) : Nat) ≤ n ∧ n < (2 ^ (bits - 1) : Nat)) : convertTo true bits t = some n := by
  rw [convertTo_iff]
  refine ⟨?_, by simpa using hb⟩
  cases h with
  | dec h => exact .inl ⟨_, h, rfl⟩
  | plus h => exact .inr (.inl ⟨_, _, rfl, h, rfl⟩)
  | minus h => exact .inr (.inr (.inl ⟨_, _, rfl, rfl, h, rfl⟩))
  | hex h => exact .inr (.inr (.inr ⟨_, _, rfl, h, rfl⟩))

theorem SXml.num_unsigned {x : SXml} {name : Str} {bits : Nat} {d n : Int}
    (hu : ∀ t, x.attr name = some t → ∃ n, UnsignedText t n) (h : NumAttr x name d n)
    (hb : n < (2 ^ bits : Nat)) : x.num name false bits d = .ok n := by
  unfold SXml.num
  have hu' := h
  rcases h with ⟨h, rfl⟩ | ⟨t, h, h'⟩
  · rw [h]
  · obtain ⟨m, hm⟩ := hu t h
    have : n = m := NumAttr.unique hu' (.inr ⟨t, h, hm.plain⟩)
    subst this
    rw [h]
    simp only [hm.convert (bits := bits) (by omega)]

theorem SXml.num_signed {x : SXml} {name : Str} {bits : Nat} {d n : Int} (h : NumAttr x name d n)
    (hb : -(2 ^ (bits - 1) : Nat) ≤ n ∧ n < (2 ^ (bits - 1) : Nat)) : x.num name true bits d = .ok n := by
  unfold SXml.num
  rcases h with ⟨h, rfl⟩ | ⟨t, h, h'⟩
  · rw [h]
  · rw [h]
    simp only [PlainInt.convertTo h' hb]

theorem SXml.size_unsigned {x : SXml} {name : Str} {d n : Nat}
    (hu : ∀ t, x.attr name = some t → ∃ n, UnsignedText t n ∧ n < 2 ^ 64) (hd : d < 2 ^ 64)
    (h : NumAttr x name d n) : x.size name d = .ok n := by
  unfold SXml.size
  have hn : n < 2 ^ 64 := by
    rcases id h with ⟨_, h'⟩ | ⟨t, h', _⟩
    · omega
    · obtain ⟨m, hm, hb⟩ := hu t h'
      have : (n : Int) = m := NumAttr.unique h (.inr ⟨t, h', hm.plain⟩)
      omega
  rw [SXml.num_unsigned (n := n) (fun t ht => (hu t ht).imp fun _ h => h.1) h (by omega)]
  simp [Out.bind]

/-- Every such attribute has a value. -/
theorem NumAttr.exists {x : SXml} {name : Str} (d : Nat)
    (hu : ∀ t, x.attr name = some t → ∃ n, UnsignedText t n ∧ n < 2 ^ 64) : ∃ n : Nat, NumAttr x name d n := by
  cases h : x.attr name with
  | none => exact ⟨d, .inl ⟨h, rfl⟩⟩
  | some t =>
    obtain ⟨n, hn, -⟩ := hu t h
    exact ⟨n, .inr ⟨t, h, hn.plain⟩⟩

theorem Spec.Legible.attrs {x : SXml} (h : Legible x) : ∃ a, typeAttrs x = .ok a := by
  obtain ⟨n, hn⟩ := NumAttr.exists 0 (h.sizes (s "ArrayLength") (by simp))
  unfold typeAttrs
  rw [SXml.size_unsigned (h.sizes (s "ArrayLength") (by simp)) (by decide) hn]
  simp only [Out.bind]
  obtain ⟨ms, hm⟩ := h.mapping
  cases ha : x.attr (s "Mapping") with
  | none => exact ⟨_, rfl⟩
  | some raw =>
    by_cases hr : raw = []
    · simp only [if_pos hr]; exact ⟨_, rfl⟩
    · simp only [if_neg hr]
      cases hm with
      | none h' => rw [ha] at h'; simp [hr] at h'
      | some h1 _ h2 =>
        rw [ha] at h1; cases h1
        rw [h2]; exact ⟨_, rfl⟩

theorem subsystemMap_ok {x : SXml} (h : ∃ ms, Maps [x] ms) : ∃ m, subsystemMap x = .ok m := by
  obtain ⟨ms, hm⟩ := h
  unfold subsystemMap
  cases ha : x.attr (s "Mapping") with
  | none => exact ⟨_, rfl⟩
  | some raw =>
    by_cases hr : raw = []
    · simp only [if_pos hr]; exact ⟨_, rfl⟩
    · simp only [if_neg hr]
      cases hm with
      | none h' => rw [ha] at h'; simp [hr] at h'
      | some h1 _ h2 =>
        rw [ha] at h1; cases h1
        rw [h2]; exact ⟨_, rfl⟩

theorem SignedAttr.convert {x : SXml} {b : Bool} (h : SignedAttr x b) :
    (x.attr (s "Signed") = none ∧ b = false) ∨ ∃ t, x.attr (s "Signed") = some t ∧ convertBool t = some b := by
  rcases h with h | ⟨t, h, ht, rfl⟩ | ⟨t, h, ht, rfl⟩
  · exact .inl h
  · simp only [List.mem_cons, List.not_mem_nil, or_false] at ht
    exact .inr ⟨t, h, by rcases ht with rfl | rfl | rfl <;> rfl⟩
  · simp only [List.mem_cons, List.not_mem_nil, or_false] at ht
    exact .inr ⟨t, h, by rcases ht with rfl | rfl | rfl <;> rfl⟩

theorem loadInt_accepts {x : SXml} {t : IntType} (hl : Legible x) (h : Scalar rd x (.int t)) :
    ∃ u, loadInt x = .ok u := by
  cases h with
  | @int size signed lo hi htag a b c d e f g i =>
    unfold loadInt
    have hs := SXml.size_unsigned (n := 8 * size) (hl.sizes (s "Size") (by simp)) (by decide) a
    rw [hs]
    have hlo : x.num (s "Min") signed (8 * size) (if signed then -(2 ^ (8 * size - 1) : Nat) else 0) = .ok lo := by
      cases signed with
      | true =>
        refine SXml.num_signed d ⟨e, ?_⟩
        simp only [highest, if_true] at g
        omega
      | false =>
        refine SXml.num_unsigned (fun t ht => hl.bounds (.inr ⟨htag, c⟩) (s "Min") (by simp) t ht) d ?_
        simp only [highest, Bool.false_eq_true, if_false] at g
        omega
    have hhi : x.num (s "Max") signed (8 * size)
        (if signed then (2 ^ (8 * size - 1) : Nat) - 1 else (2 ^ (8 * size) : Nat) - 1) = .ok hi := by
      cases signed with
      | true =>
        refine SXml.num_signed f ⟨?_, ?_⟩
        · simp only [lowest, if_true] at e
          omega
        · simp only [highest, if_true] at g
          omega
      | false =>
        refine SXml.num_unsigned (fun t ht => hl.bounds (.inr ⟨htag, c⟩) (s "Max") (by simp) t ht) f ?_
        simp only [highest, Bool.false_eq_true, if_false] at g
        omega
    rcases SignedAttr.convert c with ⟨hsg, rfl⟩ | ⟨tx, hsg, hb⟩
    · rw [hsg]
      simp only [Out.bind]
      rw [if_pos (by omega)]
      simp only [hlo, hhi]
      rw [if_neg (by omega)]
      exact ⟨_, rfl⟩
    · rw [hsg]
      simp only [Out.bind, hb]
      rw [if_pos (by omega)]
      simp only [hlo, hhi]
      rw [if_neg (by omega)]
      exact ⟨_, rfl⟩

theorem loadFixed_accepts {x : SXml} {t : FixedType} (hl : Legible x) (h : Scalar rd x (.fixed t)) :
    ∃ u, loadFixed x = .ok u := by
  cases h with
  | @fixed bits i f htag a b c d e g =>
    unfold loadFixed
    have hw := hl.sum htag i f b c
    rw [SXml.size_unsigned (hl.sizes (s "Size") (by simp)) (by decide) a]
    simp only [Out.bind]
    rw [SXml.num_unsigned (n := i) (fun t ht => (hl.sizes (s "Integral") (by simp) t ht).imp fun _ h => h.1) b (by omega)]
    simp only
    rw [SXml.num_unsigned (n := f) (fun t ht => (hl.sizes (s "Fractional") (by simp) t ht).imp fun _ h => h.1) c (by omega)]
    simp only
    have := g (by omega)
    rw [if_neg (by simp only [Int.toNat_natCast]; omega)]
    exact ⟨_, rfl⟩

theorem SXml.flt_accepts {x : SXml} {name : Str} {d : Rat} {v dflt : BitVec 32} (h : FloatAttr rd x name d v) :
    ∃ w, x.flt rd name dflt = .ok w ∧ (x.attr name ≠ none → w = v) ∧ (x.attr name = none → w = dflt) := by
  unfold SXml.flt
  obtain ⟨hf, ⟨h, -⟩ | ⟨t, h, ht⟩⟩ := h
  · exact ⟨dflt, by rw [h], fun h' => absurd h h', fun _ => rfl⟩
  · refine ⟨v, ?_, fun _ => rfl, fun h' => by rw [h] at h'; cases h'⟩
    rw [h]
    simp only [ht]
    rw [if_pos ((f32Finite_iff v).2 hf)]

theorem loadFloat_accepts {x : SXml} {t : FloatType} (hl : Legible x) (h : Scalar rd x (.float t)) :
    ∃ u, loadFloat rd x = .ok u := by
  have huniq := fun u (h' : Scalar rd x (.float u)) => Scalar.unique h h'
  cases h with
  | @float lo hi htag a b c d =>
    unfold loadFloat
    rw [SXml.size_unsigned (n := 32) (hl.sizes (s "Size") (by simp)) (by decide) a]
    simp only [Out.bind]
    obtain ⟨lo', hlo, -⟩ := SXml.flt_accepts (dflt := f32OfMag true f32MaxUnits) b
    obtain ⟨hi', hhi, -⟩ := SXml.flt_accepts (dflt := f32OfMag false f32MaxUnits) c
    rw [hlo, hhi]
    have e1 := FloatAttr.unique (neg_ne_zero.2 f32Max_pos.ne') b (SXml.flt_ok hlo)
    have e2 := FloatAttr.unique f32Max_pos.ne' c (SXml.flt_ok hhi)
    subst e1; subst e2
    have := (f32Val_le _ _).1 d
    simp only [ne_eq, not_true_eq_false, if_false]
    rw [if_neg (by omega)]
    exact ⟨_, rfl⟩

theorem loadBit_accepts {x : SXml} {size : Nat} {t : BitType} (hl : Legible x) (h : Bits size x t) :
    ∃ u, loadBit size x = .ok u := by
  cases h with
  | @mk pos bits m htag a b c d e f g i =>
    have hp := hl.pos htag _ _ a b
    have hf := f (by omega)
    unfold loadBit
    rw [SXml.size_unsigned (hl.sizes (s "Pos") (by simp)) (by decide) a]
    simp only [Out.bind]
    rw [SXml.size_unsigned (hl.sizes (s "Size") (by simp)) (by decide) b]
    simp only
    have h1 : ¬ (pos + bits) % 2 ^ 64 > size * 8 := by
      rw [Nat.mod_eq_of_lt (by omega)]; omega
    have h2 : ¬ (bits = 0 ∨ bits > 64) := by omega
    cases hm : x.attr (s "Max") with
    | none => simp only [BitType.load, if_neg h1, if_neg h2]; exact ⟨_, rfl⟩
    | some t =>
      obtain ⟨n, hn⟩ := hl.bounds (.inl htag) (s "Max") (by simp) t hm
      have : (m : Int) = n := NumAttr.unique g (.inr ⟨t, hm, hn.plain⟩)
      have hp' : 2 ^ bits ≤ 2 ^ 64 := Nat.pow_le_pow_right (by decide) d
      have hp1 : 1 ≤ 2 ^ bits := Nat.one_le_two_pow
      have hlt : n < 2 ^ 64 := by omega
      simp only [hn.convert hlt, BitType.load, if_neg h1, if_neg h2]
      have hmx := maxEncodable_toNat (bits := bits) (by omega)
      rw [if_neg]
      · exact ⟨_, rfl⟩
      · have : (BitVec.ofInt 64 (n : Int)).toNat = n := by
          rw [BitVec.toNat_ofInt]; omega
        rw [this]; omega

/-- How the code finds a component type. -/
theorem Spec.Refers.find {lib : List SXml} {direct : Bool} {n : Str} (h : Refers lib direct n) :
    ∃ i, findType (lib.map typeName) n = some i ∧ (direct = true → i ≠ lib.length - 1) := by
  obtain ⟨before, t, after, rfl, h1, h2, h3⟩ := h
  refine ⟨before.length, ?_, ?_⟩
  · unfold findType
    rw [List.findIdx?_eq_some_iff_getElem]
    refine ⟨by simp, by simp [h1], fun j hj => ?_⟩
    have : ((before ++ t :: after).map typeName)[j]'(by simp; omega) = typeName before[j] := by
      rw [List.getElem_map, List.getElem_append_left hj]
    rw [this]
    have := h2 _ (List.getElem_mem hj)
    simpa using this
  · intro hd he
    have := List.length_pos_iff.2 (h3 hd)
    rw [List.length_append, List.length_cons] at he
    omega

/-- Where a declaration is, for the code. -/
def place (lib : List SXml) (direct : Bool) (blk : Option Nat) : Par :=
  match blk with
  | some n => .bits n
  | none => if direct then .type (lib.length - 1) else .other

theorem loadElems_accepts {types : List Str} {par : Par} : ∀ {xs : List SXml},
    (∀ x ∈ xs, ∃ t, loadElem rd types par x = .ok t) → ∃ ts, loadElems rd types par xs = .ok ts
  | [], _ => ⟨[], by simp [loadElems]⟩
  | x :: xs, h => by
    obtain ⟨t, ht⟩ := h x (by simp)
    obtain ⟨ts, hts⟩ := loadElems_accepts (xs := xs) (fun y hy => h y (by simp [hy]))
    exact ⟨t :: ts, by simp [loadElems, ht, hts, Out.bind]⟩

theorem loadPairs_accepts {types : List Str} {par : Par} : ∀ {xs : List SXml} {ps : List (Str × BitVec 32)},
    Pairs xs ps → (∀ x ∈ xs, x.children = []) →
    ∃ ts qs, loadElems rd types par xs = .ok ts ∧ enumPairs ts = .ok qs
  | [], _, _, _ => ⟨[], [], by simp [loadElems], by simp [enumPairs]⟩
  | .mk tag attrs cs :: xs, _, .cons (n := n) h1 h2 h3 h4, hc => by
    obtain ⟨ts, qs, hts, hqs⟩ := loadPairs_accepts (types := types) (par := par) h4 (fun y hy => hc y (by simp [hy]))
    have hcs : cs = [] := hc _ (List.mem_cons_self ..)
    have ht : tag = s "ValuePair" := h1
    subst hcs; subst ht
    have hn : (SXml.mk (s "ValuePair") attrs []).num (s "Numerical") true 32 0 = .ok n := by
      refine SXml.num_signed h2 ?_
      have := h3
      unfold FitsSigned at this
      omega
    have hl : loadElem rd types par (.mk (s "ValuePair") attrs []) =
        .ok (.mk (((SXml.mk (s "ValuePair") attrs []).attr (s "Literal")).getD []) (.pair (BitVec.ofInt 32 n)) 0
          none []) := by
      unfold loadElem
      repeat rw [if_neg (by decide)]
      rw [if_pos rfl, hn]
      simp only [Out.bind, noChildren]
    refine ⟨.mk (((SXml.mk (s "ValuePair") attrs []).attr (s "Literal")).getD []) (.pair (BitVec.ofInt 32 n)) 0
        none [] :: ts, (((SXml.mk (s "ValuePair") attrs []).attr (s "Literal")).getD [], BitVec.ofInt 32 n) :: qs, ?_, ?_⟩
    · rw [loadElems, hl, hts]; rfl
    · rw [enumPairs, hqs]; rfl

theorem loadElem_accepts {lib : List SXml} {direct : Bool} {blk : Option Nat} {x : SXml}
    (h : Accepted rd lib direct blk x) : ∃ t, loadElem rd (lib.map typeName) (place lib direct blk) x = .ok t := by
  induction h with
  | @scalar direct blk x t h hl hc =>
    obtain ⟨tag, attrs, cs⟩ := x
    obtain ⟨a, ha⟩ := hl.attrs
    have hsc := h
    cases h with
    | bool htag =>
      have htag : tag = s "BooleanParameter" := htag
      subst htag
      have hcs : cs = [] := hc.other (by simp only [SXml.tag]; decide) (by simp only [SXml.tag]; decide)
      subst hcs
      unfold loadElem
      repeat rw [if_neg (by decide)]
      rw [if_pos rfl, ha]
      exact ⟨_, rfl⟩
    | int htag =>
      have htag : tag = s "IntegerParameter" := htag
      subst htag
      obtain ⟨u, hu⟩ := loadInt_accepts hl hsc
      obtain ⟨ts, hts⟩ : ∃ ts, loadElems rd (lib.map typeName) .other cs = .ok ts := by
        refine loadElems_accepts fun c hcm => ?_
        obtain ⟨h1, h2⟩ := hc.int rfl c hcm
        obtain ⟨tag, attrs', cs'⟩ := c
        have h2 : cs' = [] := h2
        subst h2
        simp only [SXml.tag, List.mem_cons, List.not_mem_nil, or_false] at h1
        rcases h1 with rfl | rfl
        · unfold loadElem
          repeat rw [if_neg (by decide)]
          rw [if_pos (by decide)]
          exact ⟨_, rfl⟩
        · unfold loadElem
          repeat rw [if_neg (by decide)]
          rw [if_pos (by decide)]
          exact ⟨_, rfl⟩
      unfold loadElem
      repeat rw [if_neg (by decide)]
      rw [if_pos rfl, hu, ha, hts]
      exact ⟨_, rfl⟩
    | enum htag a1 a2 a3 =>
      have htag : tag = s "EnumParameter" := htag
      subst htag
      obtain ⟨ts, qs, hts, hqs⟩ := loadPairs_accepts (rd := rd) (types := lib.map typeName) (par := .other) a3
        (hc.enum rfl)
      have hts : loadElems rd (lib.map typeName) .other cs = .ok ts := hts
      obtain ⟨tx, htx⟩ := Option.ne_none_iff_exists'.1 a1
      unfold loadElem
      repeat rw [if_neg (by decide)]
      rw [if_pos rfl]
      simp only [htx]
      rw [SXml.size_unsigned (hl.sizes (s "Size") (by simp)) (by decide) a2, ha, hts]
      simp only [Out.bind, hqs]
      exact ⟨_, rfl⟩
    | fixed htag =>
      have htag : tag = s "FixedPointParameter" := htag
      subst htag
      have hcs : cs = [] := hc.other (by simp only [SXml.tag]; decide) (by simp only [SXml.tag]; decide)
      subst hcs
      obtain ⟨u, hu⟩ := loadFixed_accepts hl hsc
      unfold loadElem
      repeat rw [if_neg (by decide)]
      rw [if_pos rfl, hu, ha]
      exact ⟨_, rfl⟩
    | float htag =>
      have htag : tag = s "FloatingPointParameter" := htag
      subst htag
      have hcs : cs = [] := hc.other (by simp only [SXml.tag]; decide) (by simp only [SXml.tag]; decide)
      subst hcs
      obtain ⟨u, hu⟩ := loadFloat_accepts hl hsc
      unfold loadElem
      repeat rw [if_neg (by decide)]
      rw [if_pos rfl, hu, ha]
      exact ⟨_, rfl⟩
  | @string direct blk x htag hl hc =>
    obtain ⟨tag, attrs, cs⟩ := x
    have htag : tag = s "StringParameter" := htag
    have hc : cs = [] := hc
    subst htag; subst hc
    obtain ⟨a, ha⟩ := hl.attrs
    obtain ⟨n, hn⟩ := NumAttr.exists 0 (hl.sizes (s "MaxLength") (by simp))
    unfold loadElem
    repeat rw [if_neg (by decide)]
    rw [if_pos rfl, SXml.size_unsigned (hl.sizes (s "MaxLength") (by simp)) (by decide) hn, ha]
    exact ⟨_, rfl⟩
  | @bit direct size x t hb hl hc =>
    obtain ⟨u, hu⟩ := loadBit_accepts hl hb
    have htag := Bits.tag hb
    obtain ⟨tag, attrs, cs⟩ := x
    have htag : tag = s "BitParameter" := htag
    have hc : cs = [] := hc
    subst htag; subst hc
    obtain ⟨a, ha⟩ := hl.attrs
    unfold loadElem
    repeat rw [if_neg (by decide)]
    rw [if_pos rfl]
    simp only [place]
    rw [hu, ha]
    exact ⟨_, rfl⟩
  | @bitBlock direct blk x bits htag hl hb _ ih =>
    obtain ⟨ts, hts⟩ := loadElems_accepts ih
    obtain ⟨tag, attrs, cs⟩ := x
    have htag : tag = s "BitParameterBlock" := htag
    subst htag
    obtain ⟨a, ha⟩ := hl.attrs
    have hts : loadElems rd (lib.map typeName) (.bits (bits / 8)) cs = .ok ts := hts
    unfold loadElem
    repeat rw [if_neg (by decide)]
    rw [if_pos rfl, SXml.size_unsigned (hl.sizes (s "Size") (by simp)) (by decide) hb]
    simp only [Out.bind]
    rw [ha, hts]
    exact ⟨_, rfl⟩
  | @block direct blk x htag hl _ ih =>
    obtain ⟨ts, hts⟩ := loadElems_accepts ih
    obtain ⟨tag, attrs, cs⟩ := x
    have htag : tag = s "ParameterBlock" := htag
    subst htag
    obtain ⟨a, ha⟩ := hl.attrs
    have hts : loadElems rd (lib.map typeName) .other cs = .ok ts := hts
    unfold loadElem
    repeat rw [if_neg (by decide)]
    rw [if_pos rfl, ha, hts]
    exact ⟨_, rfl⟩
  | @comp direct blk x n htag hl hn hr _ ih =>
    obtain ⟨ts, hts⟩ := loadElems_accepts ih
    obtain ⟨i, hi, hd⟩ := Spec.Refers.find hr
    obtain ⟨tag, attrs, cs⟩ := x
    have htag : tag = s "Component" := htag
    subst htag
    obtain ⟨a, ha⟩ := hl.attrs
    have hts : loadElems rd (lib.map typeName) .other cs = .ok ts := hts
    unfold loadElem
    rw [if_pos rfl, hn]
    simp only [Option.getD_some, hi]
    rw [if_neg, ha, hts]
    · exact ⟨_, rfl⟩
    · unfold place
      cases blk with
      | some _ => simp
      | none =>
        cases direct with
        | false => simp
        | true => simp only [if_true, Par.type.injEq]; intro h; exact hd rfl h.symm

theorem loadType_accepts {before : List SXml} {t : SXml} (h : TypeAccepted rd before t) :
    ∃ u, loadType rd ((before ++ [t]).map typeName) t = .ok u := by
  obtain ⟨a, ha⟩ := h.attrs.attrs
  obtain ⟨ts, hts⟩ := loadElems_accepts (fun c hc => loadElem_accepts (h.children c hc))
  have hts : loadElems rd ((before ++ [t]).map typeName) (.type ((before ++ [t]).length - 1)) t.children = .ok ts := hts
  unfold loadType
  rw [ha, List.length_map, hts]
  simp only [Out.bind]
  cases he : t.attr (s "Extends") with
  | none => exact ⟨_, rfl⟩
  | some n =>
    obtain ⟨i, hi, hd⟩ := Spec.Refers.find (h.ext n he)
    simp only [hi]
    rw [if_neg (hd rfl)]
    exact ⟨_, rfl⟩

mutual
theorem loadLibItem_accepts {pre : List SXml} {lib : List TypeDef} (hl : LibOk rd pre lib) : ∀ x : SXml,
    (∀ a t b, pre ++ typesIn x = a ++ t :: b → TypeAccepted rd a t) → ∃ lib', loadLibItem rd lib x = .ok lib'
  | .mk tag attrs cs, h => by
    unfold typesIn at h
    unfold loadLibItem
    by_cases h1 : tag = s "ComponentLibrary" ∨ tag = s "ComponentTypeSet"
    · rw [if_pos h1] at h ⊢
      exact loadLibItems_accepts hl cs h
    · rw [if_neg h1] at h ⊢
      have ht := h pre _ [] rfl
      have htag : tag = s "ComponentType" := ht.tag
      obtain ⟨u, hu⟩ := loadType_accepts ht
      rw [List.map_append] at hu
      rw [if_pos htag, hl.names, typePathName_eq]
      have hu : loadType rd (pre.map typeName ++ [typeName (.mk tag attrs cs)]) (.mk tag attrs cs) = .ok u := hu
      rw [hu]
      exact ⟨_, rfl⟩
theorem loadLibItems_accepts {pre : List SXml} {lib : List TypeDef} (hl : LibOk rd pre lib) : ∀ xs : List SXml,
    (∀ a t b, pre ++ typesInAll xs = a ++ t :: b → TypeAccepted rd a t) → ∃ lib', loadLibItems rd lib xs = .ok lib'
  | [], _ => ⟨lib, by simp [loadLibItems]⟩
  | x :: xs, h => by
    unfold typesInAll at h
    obtain ⟨lib1, h1⟩ := loadLibItem_accepts hl x (fun a t b e => h a t (b ++ typesInAll xs) (by
      rw [← List.append_assoc, e]; simp))
    obtain ⟨lib2, h2⟩ := loadLibItems_accepts (loadLibItem_ok hl x h1) xs (fun a t b e => h a t b (by
      rw [← e]; simp))
    exact ⟨lib2, by rw [loadLibItems, h1]; exact h2⟩
end

theorem loadDeclarations_accepts {x defx : SXml} {lib : List SXml} (h : DocumentAccepted rd x lib defx) :
    ∃ r, loadDeclarations rd x = .ok r := by
  obtain ⟨libx, hc, hlt, -, rfl⟩ := h.layout
  obtain ⟨m, hm⟩ := subsystemMap_ok h.mapping
  obtain ⟨l, hl⟩ := loadLibItems_accepts (rd := rd) (pre := []) (lib := []) ⟨rfl, by simp⟩ libx.children
    (fun a t b e => h.types a t b e)
  have hl' := loadLibItems_ok (pre := []) ⟨rfl, by simp⟩ _ hl
  obtain ⟨a, ha⟩ := h.attrs.attrs
  obtain ⟨ts, hts⟩ := loadElems_accepts (fun c hc => loadElem_accepts (h.instances c hc))
  have hlib : childOrLast x (s "ComponentLibrary") = some libx := by
    simp [childOrLast, hc, hlt]
  have hdef : childOrLast x (s "InstanceDefintion") = some defx := by
    have h1 : (libx.tag == s "InstanceDefintion") = false := by rw [hlt]; decide
    simp only [childOrLast, hc, List.find?, h1]
    cases h2 : (defx.tag == s "InstanceDefintion") <;> simp
  unfold loadDeclarations
  rw [hm]
  simp only [Out.bind]
  rw [hlib]
  simp only
  rw [hl]
  simp only
  rw [hdef]
  simp only
  rw [ha]
  simp only
  rw [hl'.names]
  have hts : loadElems rd ((typesInAll libx.children).map typeName) .other defx.children = .ok ts := hts
  simp only [List.nil_append]
  rw [hts]
  exact ⟨_, rfl⟩

/-! ## Instantiation -/

/-- With enough nested calls the type element gives an element. -/
def Builds (lib : List TypeDef) (t : TElem) : Prop :=
  ∃ fuel i, instElem lib (typeContent lib fuel) t = some (.ok i)

theorem Builds.all {lib : List TypeDef} : ∀ {ts : List TElem}, (∀ t ∈ ts, Builds lib t) →
    ∃ fuel is, instElems lib (typeContent lib fuel) ts = some (.ok is)
  | [], _ => ⟨0, [], by simp [instElems]⟩
  | t :: ts, h => by
    obtain ⟨f, i, hi⟩ := h t (by simp)
    obtain ⟨g, is, his⟩ := Builds.all (ts := ts) (fun u hu => h u (by simp [hu]))
    refine ⟨max f g, i :: is, ?_⟩
    rw [instElems, instElem_mono (fun _ _ h => typeContent_mono_le (Nat.le_max_left f g) h) _ _ hi,
      instElems_mono (fun _ _ h => typeContent_mono_le (Nat.le_max_right f g) h) _ _ his]
    rfl

theorem loadElems_mem {types : List Str} {par : Par} : ∀ {xs : List SXml} {ts : List TElem},
    loadElems rd types par xs = .ok ts → ∀ t ∈ ts, ∃ x ∈ xs, loadElem rd types par x = .ok t
  | [], ts, h, t, ht => by
    simp only [loadElems, Out.ok.injEq] at h; subst h; cases ht
  | x :: xs, ts, h, t, ht => by
    simp only [loadElems, Out.bind_ok, Out.ok.injEq] at h
    obtain ⟨u, hu, us, hus, rfl⟩ := h
    rcases List.mem_cons.1 ht with rfl | ht
    · exact ⟨x, by simp, hu⟩
    · obtain ⟨y, hy, hy'⟩ := loadElems_mem hus t ht
      exact ⟨y, by simp [hy], hy'⟩

/-- The type elements of the declaration `x`, wherever it is loaded, give elements. -/
def BuildsAll (rd : Reader) (libx : List SXml) (lib : List TypeDef) (x : SXml) : Prop :=
  ∀ k par t, loadElem rd ((libx.map typeName).take k) par x = .ok t → Builds lib t

theorem Chain.builds {libx : List SXml} {lib : List TypeDef} (hl : LibOk rd libx lib) {y : SXml} {ts : List SXml}
    (hc : Chain libx y ts) : ∀ {j : Nat}, libx[j]? = some y →
    (∀ c ∈ ts.flatMap SXml.children, BuildsAll rd libx lib c) →
    ∃ fuel is, typeContent lib fuel j = some (.ok is) := by
  induction hc with
  | @last y he =>
    intro j hx hb
    obtain ⟨t, ht⟩ := hl.get hx
    obtain ⟨-, -, hcs, -⟩ := loadType_ok (hl.ok j t y ht hx)
    obtain ⟨f, is, his⟩ := Builds.all (lib := lib) (ts := t.children) (fun u hu => by
      obtain ⟨c, hc, hc'⟩ := loadElems_mem hcs u hu
      exact hb c (by simpa using hc) _ _ _ hc')
    refine ⟨f + 1, is, ?_⟩
    rw [typeContent, ht]
    simp only
    rw [his]
    rcases hl.ext hx ht with ⟨e1, e2⟩ | ⟨e, i, z, e1, e2, -, e4, e5⟩
    · simp [Run.bind, e2]
    · rw [he] at e1; cases e1
  | @more y e u us he hn _ ih =>
    intro j hx hb
    obtain ⟨t, ht⟩ := hl.get hx
    obtain ⟨-, -, hcs, -⟩ := loadType_ok (hl.ok j t y ht hx)
    obtain ⟨f, is, his⟩ := Builds.all (lib := lib) (ts := t.children) (fun u hu => by
      obtain ⟨c, hc, hc'⟩ := loadElems_mem hcs u hu
      exact hb c (by simp [hc]) _ _ _ hc')
    rcases hl.ext hx ht with ⟨e1, e2⟩ | ⟨e', i, z, e1, e2, -, e4, e5⟩
    · rw [he] at e1; cases e1
    · rw [he] at e1; cases e1
      cases TypeNamed.unique e5 hn
      obtain ⟨g, js, hjs⟩ := ih e4 (fun c hc => hb c (by
        rw [List.flatMap_cons]; exact List.mem_append_right _ hc))
      refine ⟨max f g + 1, is ++ js, ?_⟩
      rw [typeContent, ht]
      simp only
      rw [instElems_mono (fun _ _ h => typeContent_mono_le (Nat.le_max_left f g) h) _ _ his]
      simp only [Run.bind, e2]
      rw [typeContent_mono_le (Nat.le_max_right f g) hjs]

theorem buildsAll_leaf {libx : List SXml} {lib : List TypeDef} {x : SXml} (h : x.tag ∈ declTags)
    (hg : x.tag ∉ groupTags) : BuildsAll rd libx lib x := by
  intro k par t ht
  cases loadElem_cases ht with
  | comp h1 => rw [h1] at hg; exact absurd (by decide) hg
  | block h1 => rw [h1] at hg; exact absurd (by decide) hg
  | bitBlock h1 => rw [h1] at hg; exact absurd (by decide) hg
  | pair h1 => rw [h1] at h; exact absurd h (by decide)
  | adaptation h1 => rcases h1 with h1 | h1 <;> rw [h1] at h <;> exact absurd h (by decide)
  | _ => exact ⟨0, _, by rw [instElem]⟩

theorem buildsAll_block {libx : List SXml} {lib : List TypeDef} {x : SXml}
    (h : x.tag = s "ParameterBlock" ∨ x.tag = s "BitParameterBlock")
    (hc : ∀ c ∈ x.children, BuildsAll rd libx lib c) : BuildsAll rd libx lib x := by
  intro k par t ht
  have hsub : ∀ par' ts, loadElems rd ((libx.map typeName).take k) par' x.children = .ok ts →
      ∃ fuel is, instElems lib (typeContent lib fuel) ts = some (.ok is) := by
    intro par' ts hts
    refine Builds.all fun u hu => ?_
    obtain ⟨c, hcm, hc'⟩ := loadElems_mem hts u hu
    exact hc c hcm _ _ _ hc'
  cases loadElem_cases ht with
  | block h1 _ hts =>
    obtain ⟨f, is, his⟩ := hsub _ _ hts
    refine ⟨f, ?_⟩
    rw [instElem, his]
    exact ⟨_, rfl⟩
  | bitBlock h1 _ _ hts =>
    obtain ⟨f, is, his⟩ := hsub _ _ hts
    refine ⟨f, ?_⟩
    rw [instElem, his]
    exact ⟨_, rfl⟩
  | comp h1 => rw [h1] at h; exact absurd h (by decide)
  | pair h1 => rw [h1] at h; exact absurd h (by decide)
  | adaptation h1 => rcases h1 with h1 | h1 <;> rw [h1] at h <;> exact absurd h (by decide)
  | _ => exact ⟨0, _, by rw [instElem]⟩

theorem buildsAll_comp {libx : List SXml} {lib : List TypeDef} (hl : LibOk rd libx lib) {x t : SXml} {ts : List SXml}
    (h : x.tag = s "Component") (hn : TypeNamed libx ((x.attr (s "Type")).getD []) t) (hch : Chain libx t ts)
    (hc : ∀ c ∈ x.children ++ ts.flatMap SXml.children, BuildsAll rd libx lib c) : BuildsAll rd libx lib x := by
  intro k par u hu
  cases loadElem_cases hu with
  | comp _ hf _ _ hts =>
    obtain ⟨f, is, his⟩ := Builds.all (lib := lib) (fun u hu => by
      obtain ⟨c, hcm, hc'⟩ := loadElems_mem hts u hu
      exact hc c (by simp [hcm]) _ _ _ hc')
    obtain ⟨-, y, hy, hy'⟩ := findType_ok hf
    cases TypeNamed.unique hn hy'
    obtain ⟨g, js, hjs⟩ := Chain.builds hl hch hy (fun c hcm => hc c (List.mem_append_right _ hcm))
    refine ⟨max f g, ?_⟩
    rw [instElem, instElems_mono (fun _ _ h => typeContent_mono_le (Nat.le_max_left f g) h) _ _ his]
    simp only [Run.bind]
    rw [typeContent_mono_le (Nat.le_max_right f g) hjs]
    exact ⟨_, rfl⟩
  | block h1 => rw [h1] at h; exact absurd h (by decide)
  | bitBlock h1 => rw [h1] at h; exact absurd h (by decide)
  | pair h1 => rw [h1] at h; exact absurd h (by decide)
  | adaptation h1 => rcases h1 with h1 | h1 <;> rw [h1] at h <;> exact absurd h (by decide)
  | _ => exact ⟨0, _, by rw [instElem]⟩

mutual
theorem Inst.builds {libx : List SXml} {lib : List TypeDef} (hl : LibOk rd libx lib) {blk : Option Nat} {x : SXml}
    {i : IElem} (h : Inst rd libx blk x i) : BuildsAll rd libx lib x := by
  have hd := Inst.declTag h
  match h with
  | .scalar h1 _ _ => exact buildsAll_leaf hd (by cases h1 <;> simp_all [groupTags, s])
  | .string h1 _ _ => exact buildsAll_leaf hd (by rw [h1]; decide)
  | .bit h1 _ => exact buildsAll_leaf hd (by rw [Bits.tag h1]; decide)
  | .bitBlock h1 _ _ hi => exact buildsAll_block (.inr h1) (Insts.builds hl hi)
  | .block h1 _ _ hi => exact buildsAll_block (.inl h1) (Insts.builds hl hi)
  | .blocks h1 _ _ _ hi _ => exact buildsAll_block (.inl h1) (Insts.builds hl hi)
  | .comp h1 h2 h3 _ _ hi => exact buildsAll_comp hl h1 h2 h3 (Insts.builds hl hi)
  | .comps h1 h2 h3 _ _ _ hi _ => exact buildsAll_comp hl h1 h2 h3 (Insts.builds hl hi)
theorem Insts.builds {libx : List SXml} {lib : List TypeDef} (hl : LibOk rd libx lib) {blk : Option Nat}
    {xs : List SXml} {is : List IElem} (h : Insts rd libx blk xs is) : ∀ c ∈ xs, BuildsAll rd libx lib c := by
  match h with
  | .nil => intro c hc; cases hc
  | .cons h1 h2 =>
    intro c hc
    exact (List.mem_cons.1 hc).elim (fun e => e ▸ Inst.builds hl h1) (fun hc => Insts.builds hl h2 c hc)
end

/-! ## Accepted declarations give elements or do not end -/

/-- Not finished, or a result. -/
def Fine {α : Type} (r : Run α) : Prop := r = none ∨ ∃ a, r = some (.ok a)

theorem Fine.bind {α β : Type} {x : Run α} {f : α → Run β} (hx : Fine x) (hf : ∀ a, Fine (f a)) :
    Fine (Run.bind x f) := by
  rcases hx with rfl | ⟨a, rfl⟩
  · exact .inl rfl
  · exact hf a

theorem Fine.ok {α : Type} (a : α) : Fine (some (Out.ok a)) := .inr ⟨a, rfl⟩

theorem Spec.Scalar.notGroup {x : SXml} {t : ScalarType} (h : Scalar rd x t) : x.tag ∉ groupTags := by
  cases h <;> simp_all [groupTags, s]

theorem Spec.Accepted.declTag {lib : List SXml} {direct : Bool} {blk : Option Nat} {x : SXml}
    (h : Accepted rd lib direct blk x) : x.tag ∈ declTags := by
  cases h with
  | scalar h _ _ => cases h <;> simp_all [declTags, s]
  | string h => rw [h]; decide
  | bit h => rw [Bits.tag h]; decide
  | bitBlock h => rw [h]; decide
  | block h => rw [h]; decide
  | comp h => rw [h]; decide

theorem Spec.Accepted.inside {lib : List SXml} {direct : Bool} {blk : Option Nat} {x : SXml}
    (h : Accepted rd lib direct blk x) (hg : x.tag ∈ groupTags) :
    ∃ blk', ∀ c ∈ x.children, Accepted rd lib false blk' c := by
  cases h with
  | scalar h _ _ => exact absurd hg h.notGroup
  | string h => rw [h] at hg; exact absurd hg (by decide)
  | bit h => rw [Bits.tag h] at hg; exact absurd hg (by decide)
  | bitBlock _ _ _ h => exact ⟨_, h⟩
  | block _ _ h => exact ⟨_, h⟩
  | comp _ _ _ _ h => exact ⟨_, h⟩

mutual
theorem instElem_fine {libx alib : List SXml} {lib : List TypeDef} {F : Nat → Run (List IElem)} {k : Nat}
    (hF : ∀ i, i < libx.length → Fine (F i)) : ∀ (x : SXml) (par : Par) (t : TElem) (direct : Bool)
      (blk : Option Nat), loadElem rd ((libx.map typeName).take k) par x = .ok t →
      Accepted rd alib direct blk x → Fine (instElem lib F t)
  | .mk tag attrs cs, par, t, direct, blk, h, ha => by
    have hsub : ∀ par' ts, tag ∈ groupTags → loadElems rd ((libx.map typeName).take k) par' cs = .ok ts →
        Fine (instElems lib F ts) := fun par' ts hg h1 => by
      obtain ⟨blk', hb⟩ := ha.inside hg
      exact instElems_fine hF cs par' ts false blk' h1 hb
    have hd := ha.declTag
    cases loadElem_cases h with
    | comp htag hf _ _ hts =>
      simp only [instElem]
      have hg : tag ∈ groupTags := by rw [show tag = s "Component" from htag]; decide
      obtain ⟨-, y, hy, -⟩ := findType_ok hf
      exact (hsub _ _ hg hts).bind fun _ =>
        (hF _ (List.getElem?_eq_some_iff.1 hy).1).bind fun _ => .ok _
    | block htag _ hts =>
      simp only [instElem]
      have hg : tag ∈ groupTags := by rw [show tag = s "ParameterBlock" from htag]; decide
      exact (hsub _ _ hg hts).bind fun _ => .ok _
    | bitBlock htag _ _ hts =>
      simp only [instElem]
      have hg : tag ∈ groupTags := by rw [show tag = s "BitParameterBlock" from htag]; decide
      exact (hsub _ _ hg hts).bind fun _ => .ok _
    | pair h1 => rw [h1] at hd; exact absurd hd (by decide)
    | adaptation h1 => rcases h1 with h1 | h1 <;> rw [h1] at hd <;> exact absurd hd (by decide)
    | _ => rw [instElem]; exact .ok _
theorem instElems_fine {libx alib : List SXml} {lib : List TypeDef} {F : Nat → Run (List IElem)} {k : Nat}
    (hF : ∀ i, i < libx.length → Fine (F i)) : ∀ (xs : List SXml) (par : Par) (ts : List TElem)
      (direct : Bool) (blk : Option Nat), loadElems rd ((libx.map typeName).take k) par xs = .ok ts →
      (∀ x ∈ xs, Accepted rd alib direct blk x) → Fine (instElems lib F ts)
  | [], par, ts, _, _, h, _ => by
    simp only [loadElems, Out.ok.injEq] at h; subst h
    rw [instElems]; exact .ok _
  | x :: xs, par, ts, direct, blk, h, ha => by
    simp only [loadElems, Out.bind_ok, Out.ok.injEq] at h
    obtain ⟨t, ht, us, hus, rfl⟩ := h
    simp only [instElems]
    exact (instElem_fine hF x par t direct blk ht (ha x (by simp))).bind fun _ =>
      (instElems_fine hF xs par us direct blk hus (fun y hy => ha y (by simp [hy]))).bind fun _ => .ok _
end

theorem typeContent_fine {libx : List SXml} {lib : List TypeDef} (hl : LibOk rd libx lib)
    (ha : ∀ before t after, libx = before ++ t :: after → TypeAccepted rd before t) :
    ∀ fuel j, j < libx.length → Fine (typeContent lib fuel j)
  | 0, _, _ => .inl rfl
  | fuel + 1, j, hj => by
    have hx : libx[j]? = some libx[j] := List.getElem?_eq_getElem hj
    obtain ⟨t, ht⟩ := hl.get hx
    obtain ⟨-, -, hcs, -⟩ := loadType_ok (hl.ok j t _ ht hx)
    simp only [typeContent, ht]
    have hacc := ha (libx.take j) libx[j] (libx.drop (j + 1)) (by
      rw [List.getElem_cons_drop, List.take_append_drop])
    refine Fine.bind (instElems_fine (typeContent_fine hl ha fuel) _ _ _ _ _ hcs hacc.children) fun own => ?_
    rcases hl.ext hx ht with ⟨-, e2⟩ | ⟨e, i, y, -, e2, -, e4, -⟩
    · simp only [e2]; exact .ok _
    · simp only [e2]
      exact (typeContent_fine hl ha fuel i (List.getElem?_eq_some_iff.1 e4).1).bind fun _ => .ok _

end PF
