import Verif.Spec.Structure
import Verif.Lemmas.Numeric
import Verif.Lemmas.Bits
import Verif.Lemmas.FloatingPoint

/-! # Lemmas on the loading of structure files -/

namespace PF
open PF.Spec

variable {rd : Reader}

theorem Out.bind_ok {α β : Type} {x : Out α} {f : α → Out β} {b : β} :
    x.bind f = .ok b ↔ ∃ a, x = .ok a ∧ f a = .ok b := by
  cases x <;> simp [Out.bind]

theorem Run.bind_ok {α β : Type} {x : Run α} {f : α → Run β} {b : β} :
    Run.bind x f = some (.ok b) ↔ ∃ a, x = some (.ok a) ∧ f a = some (.ok b) := by
  rcases x with _ | (_ | _ | _) <;> simp [Run.bind]

theorem convertTo_plain {signed : Bool} {bits : Nat} {t : Str} {n : Int}
    (h : convertTo signed bits t = some n) : PlainInt t n ∧
      (if signed then -(2 ^ (bits - 1) : Nat) ≤ n ∧ n < (2 ^ (bits - 1) : Nat)
       else 0 ≤ n ∧ n < (2 ^ bits : Nat)) := by
  rw [convertTo_iff] at h
  obtain ⟨h, hr⟩ := h
  rcases h with ⟨k, hk, rfl⟩ | ⟨u, k, rfl, hk, rfl⟩ | ⟨u, k, hs, rfl, hk, rfl⟩ | ⟨u, k, rfl, hk, rfl⟩
  · refine ⟨.dec hk, ?_⟩; cases signed <;> simp_all
  · refine ⟨.plus hk, ?_⟩; cases signed <;> simp_all
  · refine ⟨.minus hk, ?_⟩; cases signed <;> simp_all
  · refine ⟨.hex hk, ?_⟩; cases signed <;> simp_all

theorem SXml.num_ok {x : SXml} {name : Str} {signed : Bool} {bits : Nat} {d n : Int}
    (h : x.num name signed bits d = .ok n) : NumAttr x name d n ∧
      ((if signed then -(2 ^ (bits - 1) : Nat) ≤ d ∧ d < (2 ^ (bits - 1) : Nat)
        else 0 ≤ d ∧ d < (2 ^ bits : Nat)) →
       (if signed then -(2 ^ (bits - 1) : Nat) ≤ n ∧ n < (2 ^ (bits - 1) : Nat)
        else 0 ≤ n ∧ n < (2 ^ bits : Nat))) := by
  unfold SXml.num at h
  cases ha : x.attr name with
  | none =>
    simp only [ha, Out.ok.injEq] at h; subst h
    exact ⟨.inl ⟨ha, rfl⟩, id⟩
  | some t =>
    simp only [ha] at h
    cases hc : convertTo signed bits t with
    | none => simp [hc] at h
    | some k =>
      simp only [hc, Out.ok.injEq] at h; subst h
      obtain ⟨h1, h2⟩ := convertTo_plain hc
      exact ⟨.inr ⟨t, ha, h1⟩, fun _ => h2⟩

theorem SXml.size_ok {x : SXml} {name : Str} {d n : Nat} (hd : d < 2 ^ 64)
    (h : x.size name d = .ok n) : NumAttr x name d n ∧ n < 2 ^ 64 := by
  unfold SXml.size at h
  rw [Out.bind_ok] at h
  obtain ⟨k, hk, h⟩ := h
  simp only [Out.ok.injEq] at h; subst h
  obtain ⟨h1, h2⟩ := SXml.num_ok hk
  simp only [Bool.false_eq_true, if_false] at h2
  have := h2 ⟨by omega, by omega⟩
  have he : ((k.toNat : Nat) : Int) = k := by omega
  rw [he]
  exact ⟨h1, by omega⟩

theorem typeAttrs_ok {x : SXml} {len : Nat} {m : Option MData} (h : typeAttrs x = .ok (len, m)) :
    NumAttr x (s "ArrayLength") 0 (len : Nat) ∧ len < 2 ^ 64 ∧
    ∀ xs ms, Maps xs ms → Maps (x :: xs) (m.toList ++ ms) := by
  unfold typeAttrs at h
  rw [Out.bind_ok] at h
  obtain ⟨k, hk, h⟩ := h
  obtain ⟨h1, h2⟩ := SXml.size_ok (by decide) hk
  cases ha : x.attr (s "Mapping") with
  | none =>
    simp only [ha, Out.ok.injEq, Prod.mk.injEq] at h
    obtain ⟨rfl, rfl⟩ := h
    exact ⟨h1, h2, fun xs ms hm => .none (.inl ha) hm⟩
  | some raw =>
    simp only [ha] at h
    by_cases hr : raw = []
    · simp only [hr, if_true, Out.ok.injEq, Prod.mk.injEq] at h
      obtain ⟨rfl, rfl⟩ := h
      exact ⟨h1, h2, fun xs ms hm => .none (.inr (by rw [ha, hr])) hm⟩
    · simp only [if_neg hr] at h
      cases hi : MData.init raw with
      | none => simp [hi] at h
      | some d =>
        simp only [hi, Out.ok.injEq, Prod.mk.injEq] at h
        obtain ⟨rfl, rfl⟩ := h
        exact ⟨h1, h2, fun xs ms hm => .some ha hr hi hm⟩

theorem loadInt_ok {x : SXml} {t : IntType} (htag : x.tag = s "IntegerParameter")
    (h : loadInt x = .ok t) : Scalar rd x (.int t) := by
  unfold loadInt at h
  rw [Out.bind_ok] at h
  obtain ⟨bits, hb, h⟩ := h
  rw [Out.bind_ok] at h
  obtain ⟨signed, hs, h⟩ := h
  have hsa : SignedAttr x signed := by
    cases ha : x.attr (s "Signed") with
    | none => simp only [ha, Out.ok.injEq] at hs; exact .inl ⟨ha, hs.symm⟩
    | some u =>
      simp only [ha, convertBool] at hs
      by_cases h1 : u = s "0" ∨ u = s "FALSE" ∨ u = s "false"
      · simp only [if_pos h1, Out.ok.injEq] at hs
        refine .inr (.inl ⟨u, ha, ?_, hs.symm⟩)
        rcases h1 with rfl | rfl | rfl <;> simp
      · simp only [if_neg h1] at hs
        by_cases h2 : u = s "1" ∨ u = s "TRUE" ∨ u = s "true"
        · simp only [if_pos h2, Out.ok.injEq] at hs
          refine .inr (.inr ⟨u, ha, ?_, hs.symm⟩)
          rcases h2 with rfl | rfl | rfl <;> simp
        · simp [if_neg h2] at hs
  obtain ⟨hb1, -⟩ := SXml.size_ok (by decide) hb
  by_cases h8 : bits = 8 ∨ bits = 16 ∨ bits = 32
  · simp only [if_pos h8, Out.bind_ok] at h
    obtain ⟨lo, hlo, hi, hhi, h⟩ := h
    by_cases hm : lo > hi
    · simp [if_pos hm] at h
    · simp only [if_neg hm, Out.ok.injEq] at h
      subst h
      obtain ⟨l1, l2⟩ := SXml.num_ok hlo
      obtain ⟨u1, u2⟩ := SXml.num_ok hhi
      have h88 : 8 * (bits / 8) = bits := by omega
      refine .int htag ?_ (by omega) hsa ?_ ?_ ?_ ?_ (by omega)
      · have : (8 * ((bits / 8 : Nat) : Int)) = (bits : Nat) := by omega
        rw [this]; exact hb1
      · simpa [lowest, h88] using l1
      · cases signed
        · simp only [Bool.false_eq_true, if_false, lowest] at l2 ⊢
          exact (l2 ⟨by omega, by have := Nat.two_pow_pos bits; omega⟩).1
        · simp only [if_true, lowest, h88] at l2 ⊢
          exact (l2 ⟨by omega, by have := Nat.two_pow_pos (bits - 1); omega⟩).1
      · simpa [highest, h88] using u1
      · cases signed
        · simp only [Bool.false_eq_true, if_false, highest, h88] at u2 ⊢
          have := Nat.two_pow_pos bits
          have := (u2 ⟨by omega, by omega⟩).2; omega
        · simp only [if_true, highest, h88] at u2 ⊢
          have := Nat.two_pow_pos (bits - 1)
          have := (u2 ⟨by omega, by omega⟩).2; omega
  · simp [if_neg h8] at h

theorem loadFixed_ok {x : SXml} {t : FixedType} (htag : x.tag = s "FixedPointParameter")
    (h : loadFixed x = .ok t) : Scalar rd x (.fixed t) := by
  unfold loadFixed at h
  simp only [Out.bind_ok] at h
  obtain ⟨bits, hb, i, hi, f, hf, h⟩ := h
  obtain ⟨b1, -⟩ := SXml.size_ok (by decide) hb
  obtain ⟨i1, i2⟩ := SXml.num_ok hi
  obtain ⟨f1, f2⟩ := SXml.num_ok hf
  simp only [Bool.false_eq_true, if_false] at i2 f2
  have i2 := i2 (by decide)
  have f2 := f2 (by decide)
  by_cases hl : bits < (i.toNat + f.toNat + 1) % 2 ^ 32
  · rw [if_pos hl] at h; simp at h
  · simp only [if_neg hl, Out.ok.injEq] at h
    subst h
    have ei : ((i.toNat : Nat) : Int) = i := by omega
    have ef : ((f.toNat : Nat) : Int) = f := by omega
    refine .fixed htag b1 (by rw [ei]; exact i1) (by rw [ef]; exact f1) (by omega) (by omega) ?_
    intro hw
    rw [Nat.mod_eq_of_lt hw] at hl
    omega

theorem BitType.load_ok {size pos bits : Nat} {max : Option (BitVec 64)} {t : BitType}
    (h : BitType.load size pos bits max = .ok t) :
    1 ≤ bits ∧ bits ≤ 64 ∧ (pos + bits < 2 ^ 64 → pos + bits ≤ 8 * size) ∧
    t = ⟨size, pos, bits, max.getD (maxEncodable bits)⟩ ∧
    (max.getD (maxEncodable bits)).toNat ≤ 2 ^ bits - 1 := by
  unfold BitType.load at h
  by_cases h1 : (pos + bits) % 2 ^ 64 > size * 8
  · rw [if_pos h1] at h; simp at h
  · simp only [if_neg h1] at h
    by_cases h2 : bits = 0 ∨ bits > 64
    · rw [if_pos h2] at h; simp at h
    · simp only [if_neg h2] at h
      have hm := maxEncodable_toNat (bits := bits) (by omega)
      refine ⟨by omega, by omega, fun hw => by rw [Nat.mod_eq_of_lt hw] at h1; omega, ?_⟩
      cases max with
      | none =>
        simp only [Out.ok.injEq] at h
        exact ⟨h.symm, by simp [hm]⟩
      | some m =>
        by_cases h3 : m.toNat > (maxEncodable bits).toNat
        · simp only [if_pos h3] at h; cases h
        · simp only [if_neg h3, Out.ok.injEq] at h
          exact ⟨h.symm, by simp only [Option.getD_some]; omega⟩

theorem f32_eq_of_val {v w : BitVec 32} (h : f32Val v = f32Val w) (h0 : f32Val w ≠ 0) : v = w := by
  rw [f32Val_inj] at h
  have h0' : f32Units w ≠ 0 := by
    intro he; rw [f32Val_eq, he] at h0; simp at h0
  refine f32_eq_of_units ?_ h
  generalize f32Mag v = a, f32Mag w = b at *
  unfold f32Units at h h0'
  cases hv : v.msb <;> cases hw : w.msb <;> simp_all

theorem f32Max_pos : 0 < f32Max := by unfold f32Max; norm_num

theorem SXml.flt_ok {x : SXml} {name : Str} {neg : Bool} {v : BitVec 32}
    (h : x.flt rd name (f32OfMag neg f32MaxUnits) = .ok v) :
    FloatAttr rd x name (if neg then -f32Max else f32Max) v := by
  unfold SXml.flt at h
  split at h
  · rename_i hn
    obtain ⟨h1, h2, h3, -⟩ := f32OfMag_spec f32MaxUnits_sig (Nat.le_refl _) neg
    cases h
    refine ⟨(f32Finite_iff _).1 h1, .inl ⟨hn, ?_⟩⟩
    rw [f32Val_eq, f32Max_eq]
    generalize f32OfMag neg f32MaxUnits = v at *
    unfold f32Units
    rw [h2, h3]
    cases neg
    · simp
    · simp [neg_div]
  · rename_i t ht
    split at h
    · cases h
    · rename_i w hw
      split at h
      · rename_i hf
        cases h
        exact ⟨(f32Finite_iff _).1 hf, .inr ⟨t, ht, hw⟩⟩
      · cases h

theorem FloatAttr.unique {x : SXml} {name : Str} {d : Rat} {v w : BitVec 32} (hd : d ≠ 0)
    (h : FloatAttr rd x name d v) (h' : FloatAttr rd x name d w) : v = w := by
  obtain ⟨-, ⟨a, b⟩ | ⟨t, a, b⟩⟩ := h <;> obtain ⟨-, ⟨a', b'⟩ | ⟨t', a', b'⟩⟩ := h'
  · exact f32_eq_of_val (b.trans b'.symm) (b' ▸ hd)
  · rw [a] at a'; cases a'
  · rw [a] at a'; cases a'
  · rw [a] at a'; cases a'; rw [b] at b'; exact Option.some.inj b'

theorem loadFloat_ok {x : SXml} {t : FloatType} (htag : x.tag = s "FloatingPointParameter")
    (h : loadFloat rd x = .ok t) : Scalar rd x (.float t) := by
  unfold loadFloat at h
  simp only [Out.bind_ok] at h
  obtain ⟨bits, hb, h⟩ := h
  by_cases h32 : bits ≠ 32
  · rw [if_pos h32] at h; cases h
  · rw [if_neg h32] at h
    simp only [Out.bind_ok] at h
    obtain ⟨lo, hlo, hi, hhi, h⟩ := h
    have h32 : bits = 32 := by omega
    subst h32
    by_cases hle : f32Units lo > f32Units hi
    · rw [if_pos hle] at h; cases h
    · rw [if_neg hle] at h
      cases h
      exact .float htag (SXml.size_ok (by decide) hb).1 (SXml.flt_ok hlo) (SXml.flt_ok hhi)
        ((f32Val_le _ _).2 (by omega))

theorem loadBit_ok {size : Nat} {x : SXml} {t : BitType} (htag : x.tag = s "BitParameter")
    (h : loadBit size x = .ok t) : Bits size x t := by
  unfold loadBit at h
  simp only [Out.bind_ok] at h
  obtain ⟨pos, hp, bits, hb, h⟩ := h
  obtain ⟨p1, p2⟩ := SXml.size_ok (by decide) hp
  obtain ⟨b1, -⟩ := SXml.size_ok (by decide) hb
  have hpow : bits ≤ 64 → 2 ^ bits ≤ 2 ^ 64 := fun h => Nat.pow_le_pow_right (by decide) h
  have hpos := Nat.two_pow_pos bits
  cases ha : x.attr (s "Max") with
  | none =>
    simp only [ha] at h
    obtain ⟨l1, l2, l3, l4, -⟩ := BitType.load_ok h
    have hm := maxEncodable_toNat (bits := bits) l2
    have : maxEncodable bits = BitVec.ofNat 64 (2 ^ bits - 1) := by
      apply BitVec.eq_of_toNat_eq; rw [hm, BitVec.toNat_ofNat, Nat.mod_eq_of_lt (by have := hpow l2; omega)]
    subst l4
    simp only [Option.getD_none, this]
    exact .mk htag p1 b1 l1 l2 p2 l3 (.inl ⟨ha, rfl⟩) (Nat.le_refl _)
  | some u =>
    simp only [ha] at h
    cases hc : convertTo false 64 u with
    | none => simp only [hc, Out.bind_ok] at h; obtain ⟨_, _, h⟩ := h; cases h
    | some m =>
      simp only [hc] at h
      obtain ⟨l1, l2, l3, l4, l5⟩ := BitType.load_ok h
      obtain ⟨c1, c2⟩ := convertTo_plain hc
      simp only [Bool.false_eq_true, if_false] at c2
      simp only [Option.getD_some] at l4 l5
      have em : BitVec.ofInt 64 m = BitVec.ofNat 64 m.toNat := by
        obtain ⟨k, rfl⟩ := Int.eq_ofNat_of_zero_le c2.1
        exact BitVec.ofInt_natCast 64 k
      rw [em] at l4 l5
      rw [BitVec.toNat_ofNat, Nat.mod_eq_of_lt (by omega)] at l5
      subst l4
      refine .mk htag p1 b1 l1 l2 p2 l3 (.inr ⟨u, ha, ?_⟩) l5
      have : ((m.toNat : Nat) : Int) = m := by omega
      rw [this]; exact c1

/-! ## The library -/

/-- The loaded library `lib` comes from the component types `libx`. -/
structure LibOk (rd : Reader) (libx : List SXml) (lib : List TypeDef) : Prop where
  len : lib.length = libx.length
  ok : ∀ (j : Nat) t x, lib[j]? = some t → libx[j]? = some x →
    loadType rd ((libx.map typeName).take (j + 1)) x = .ok t

theorem typePathName_eq (x : SXml) : typePathName x.nameAttr = typeName x := by
  unfold typePathName typeName
  split <;> rename_i h <;> simp_all

theorem loadType_ok {types : List Str} {x : SXml} {t : TypeDef} (h : loadType rd types x = .ok t) :
    t.name = x.nameAttr ∧ (∃ len, typeAttrs x = .ok (len, t.map)) ∧
    loadElems rd types (.type (types.length - 1)) x.children = .ok t.children ∧
    ((x.attr (s "Extends") = none ∧ t.ext = none) ∨
     ∃ e j, x.attr (s "Extends") = some e ∧ t.ext = some j ∧ findType types e = some j ∧
       j ≠ types.length - 1) := by
  unfold loadType at h
  simp only [Out.bind_ok] at h
  obtain ⟨a, ha, ts, hts, h⟩ := h
  cases hx : x.attr (s "Extends") with
  | none =>
    simp only [hx, Out.ok.injEq] at h; subst h
    exact ⟨rfl, ⟨a.1, ha⟩, hts, .inl ⟨rfl, rfl⟩⟩
  | some e =>
    simp only [hx] at h
    cases hf : findType types e with
    | none => simp [hf] at h
    | some j =>
      simp only [hf] at h
      by_cases hj : j = types.length - 1
      · simp [if_pos hj] at h
      · simp only [if_neg hj, Out.ok.injEq] at h; subst h
        exact ⟨rfl, ⟨a.1, ha⟩, hts, .inr ⟨e, j, rfl, rfl, hf, hj⟩⟩

theorem LibOk.names {libx : List SXml} {lib : List TypeDef} (h : LibOk rd libx lib) :
    libNames lib = libx.map typeName := by
  apply List.ext_getElem?
  intro j
  simp only [libNames, List.getElem?_map]
  by_cases hj : j < lib.length
  · have hj' : j < libx.length := by rw [← h.len]; exact hj
    have := h.ok j _ _ (List.getElem?_eq_getElem hj) (List.getElem?_eq_getElem hj')
    rw [List.getElem?_eq_getElem hj, List.getElem?_eq_getElem hj']
    simp only [Option.map_some, (loadType_ok this).1, typePathName_eq]
  · have hj' : ¬ j < libx.length := by rw [← h.len]; exact hj
    rw [List.getElem?_eq_none (by omega), List.getElem?_eq_none (by omega)]; rfl

mutual
theorem loadLibItem_ok {pre : List SXml} {lib lib' : List TypeDef} (hl : LibOk rd pre lib) :
    ∀ x, loadLibItem rd lib x = .ok lib' → LibOk rd (pre ++ typesIn x) lib'
  | .mk tag attrs cs, h => by
    unfold loadLibItem at h
    unfold typesIn
    by_cases h1 : tag = s "ComponentLibrary" ∨ tag = s "ComponentTypeSet"
    · rw [if_pos h1] at h ⊢
      exact loadLibItems_ok hl cs h
    · rw [if_neg h1] at h ⊢
      by_cases h2 : tag = s "ComponentType"
      · rw [if_pos h2, Out.bind_ok] at h
        obtain ⟨t, ht, h⟩ := h
        simp only [Out.ok.injEq] at h; subst h
        refine ⟨by simp [hl.len], fun j u x hj hx => ?_⟩
        by_cases hjl : j < lib.length
        · have hjp : j < pre.length := by rw [← hl.len]; exact hjl
          rw [List.getElem?_append_left hjl] at hj
          rw [List.getElem?_append_left hjp] at hx
          have := hl.ok j u x hj hx
          rw [List.map_append, List.take_append_of_le_length (by simp; omega)]
          exact this
        · rw [List.getElem?_append_right (by omega)] at hj
          rw [List.getElem?_append_right (by rw [← hl.len]; omega)] at hx
          have hj0 : j - lib.length = 0 := by
            cases hk : j - lib.length with
            | zero => rfl
            | succ k => rw [hk] at hj; simp at hj
          have hx0 : j - pre.length = 0 := by rw [← hl.len]; exact hj0
          rw [hj0] at hj; rw [hx0] at hx
          simp only [List.getElem?_cons_zero, Option.some.injEq] at hj hx
          subst hj; subst hx
          rw [hl.names, typePathName_eq] at ht
          have : ((pre ++ [SXml.mk tag attrs cs]).map typeName).take (j + 1)
              = pre.map typeName ++ [typeName (.mk tag attrs cs)] := by
            rw [List.map_append, List.take_of_length_le (by simp; have := hl.len; omega)]; rfl
          rw [this]; exact ht
      · rw [if_neg h2] at h
        split at h <;> cases h
theorem loadLibItems_ok {pre : List SXml} {lib lib' : List TypeDef} (hl : LibOk rd pre lib) :
    ∀ xs, loadLibItems rd lib xs = .ok lib' → LibOk rd (pre ++ typesInAll xs) lib'
  | [], h => by
    simp only [loadLibItems, Out.ok.injEq] at h; subst h
    simpa [typesInAll] using hl
  | x :: xs, h => by
    simp only [loadLibItems, Out.bind_ok] at h
    obtain ⟨l, h1, h2⟩ := h
    have := loadLibItems_ok (loadLibItem_ok hl x h1) xs h2
    simpa [typesInAll] using this
end

theorem findType_ok {libx : List SXml} {k : Nat} {n : Str} {i : Nat}
    (h : findType ((libx.map typeName).take k) n = some i) :
    i < k ∧ ∃ x, libx[i]? = some x ∧ TypeNamed libx n x := by
  unfold findType at h
  rw [List.findIdx?_eq_some_iff_getElem] at h
  obtain ⟨hi, h1, h2⟩ := h
  simp only [List.length_take, List.length_map] at hi
  have hil : i < libx.length := by omega
  refine ⟨by omega, libx[i], List.getElem?_eq_getElem hil, libx.take i, libx.drop (i + 1), ?_, ?_, ?_⟩
  · rw [List.getElem_cons_drop, List.take_append_drop]
  · simpa using h1
  · intro u hu
    obtain ⟨j, hj, rfl⟩ := List.getElem_of_mem hu
    simp only [List.length_take] at hj
    have := h2 j (by omega)
    simpa using this

theorem TypeNamed.unique {lib : List SXml} {n : Str} {t u : SXml} (h : TypeNamed lib n t)
    (h' : TypeNamed lib n u) : t = u := by
  obtain ⟨a, b, e, h1, h2⟩ := h
  obtain ⟨c, d, e', h3, h4⟩ := h'
  induction a generalizing lib c with
  | nil => cases c with
    | nil => simp_all
    | cons y ys =>
      exfalso
      simp only [List.nil_append, List.cons_append, e, List.cons.injEq] at e'
      exact h4 y (by simp) (e'.1 ▸ h1)
  | cons x xs ih => cases c with
    | nil =>
      exfalso
      simp only [List.nil_append, List.cons_append, e', List.cons.injEq] at e
      exact h2 x (by simp) (e.1 ▸ h3)
    | cons y ys =>
      simp only [List.cons_append, e, List.cons.injEq] at e'
      exact ih (lib := xs ++ t :: b) rfl (fun z hz => h2 z (by simp [hz])) ys e'.2 (fun z hz => h4 z (by simp [hz]))

theorem Chain.unique {lib : List SXml} {t : SXml} {ts us : List SXml} (h : Chain lib t ts)
    (h' : Chain lib t us) : ts = us := by
  induction h generalizing us with
  | last h1 => cases h' with
    | last => rfl
    | more h2 => rw [h1] at h2; cases h2
  | more h1 h2 _ ih => cases h' with
    | last h3 => rw [h1] at h3; cases h3
    | more h3 h4 h5 =>
      rw [h1] at h3; cases h3
      cases TypeNamed.unique h2 h4
      rw [ih h5]

/-- The extended type of type `j` comes before it. -/
theorem LibOk.ext {libx : List SXml} {lib : List TypeDef} (h : LibOk rd libx lib) {j : Nat} {x : SXml}
    {t : TypeDef} (hx : libx[j]? = some x) (ht : lib[j]? = some t) :
    (x.attr (s "Extends") = none ∧ t.ext = none) ∨
    ∃ e i y, x.attr (s "Extends") = some e ∧ t.ext = some i ∧ i < j ∧ libx[i]? = some y ∧
      TypeNamed libx e y := by
  have hj : j < libx.length := (List.getElem?_eq_some_iff.1 hx).1
  obtain ⟨-, -, -, h4⟩ := loadType_ok (h.ok j t x ht hx)
  rcases h4 with h4 | ⟨e, i, h5, h6, h7, h8⟩
  · exact .inl h4
  · obtain ⟨hi, y, hy, hn⟩ := findType_ok h7
    simp only [List.length_take, List.length_map] at h8
    exact .inr ⟨e, i, y, h5, h6, by omega, hy, hn⟩

theorem LibOk.get {libx : List SXml} {lib : List TypeDef} (h : LibOk rd libx lib) {j : Nat} {x : SXml}
    (hx : libx[j]? = some x) : ∃ t, lib[j]? = some t := by
  have hj : j < libx.length := (List.getElem?_eq_some_iff.1 hx).1
  exact ⟨lib[j]'(by rw [h.len]; exact hj), List.getElem?_eq_getElem _⟩

theorem LibOk.chain {libx : List SXml} {lib : List TypeDef} (h : LibOk rd libx lib) :
    ∀ fuel j x, libx[j]? = some x → j < fuel → ∃ ts, Chain libx x ts ∧ Maps ts (typeMaps lib fuel j)
  | 0, _, _, _, hj => by omega
  | fuel + 1, j, x, hx, hj => by
    obtain ⟨t, ht⟩ := h.get hx
    obtain ⟨-, ⟨len, ha⟩, -, -⟩ := loadType_ok (h.ok j t x ht hx)
    obtain ⟨-, -, hm⟩ := typeAttrs_ok ha
    simp only [typeMaps, ht]
    rcases h.ext hx ht with ⟨h1, h2⟩ | ⟨e, i, y, h1, h2, h3, h4, h5⟩
    · exact ⟨[x], .last h1, by simpa [h2] using hm [] [] .nil⟩
    · obtain ⟨ts, c, m⟩ := h.chain fuel i y h4 (by omega)
      exact ⟨x :: ts, .more h1 h5 c, by simpa [h2] using hm ts _ m⟩

/-! ## Instances -/

theorem Insts.append {lib : List SXml} {blk : Option Nat} {xs ys : List SXml} {is js : List IElem}
    (h : Insts rd lib blk xs is) (h' : Insts rd lib blk ys js) : Insts rd lib blk (xs ++ ys) (is ++ js) := by
  induction xs generalizing is with
  | nil => cases h; simpa using h'
  | cons x xs ih => cases h with
    | cons h1 h2 => exact .cons h1 (ih h2)

theorem arrayElems_numbered (k : EKind) (ms : List MData) (len : Nat) (is : List IElem) :
    Numbered len k ms is (arrayElems k ms len is) := by
  refine ⟨by simp [arrayElems], fun i hi => ?_⟩
  simp [arrayElems, List.getElem?_range hi]

theorem noChildren_ok {cs : List SXml} {u : Unit} (h : noChildren cs = .ok u) : cs = [] := by
  cases cs with
  | nil => rfl
  | cons => cases h

/-- What the parent's block size is. -/
def Par.blk : Par → Option Nat
  | .bits n => some n
  | _ => none

/-- The ways an element is loaded. -/
inductive LoadCase (rd : Reader) (types : List Str) (par : Par) : SXml → TElem → Prop
  | comp {x i len m ts} : x.tag = s "Component" → findType types ((x.attr (s "Type")).getD []) = some i →
      par ≠ .type i → typeAttrs x = .ok (len, m) → loadElems rd types .other x.children = .ok ts →
      LoadCase rd types par x (.mk x.nameAttr (.comp i) len m ts)
  | block {x len m ts} : x.tag = s "ParameterBlock" → typeAttrs x = .ok (len, m) →
      loadElems rd types .other x.children = .ok ts →
      LoadCase rd types par x (.mk x.nameAttr .block len m ts)
  | bitBlock {x bits len m ts} : x.tag = s "BitParameterBlock" → x.size (s "Size") 0 = .ok bits →
      typeAttrs x = .ok (len, m) → loadElems rd types (.bits (bits / 8)) x.children = .ok ts →
      LoadCase rd types par x (.mk x.nameAttr (.bitBlock (bits / 8)) len m ts)
  | bit {x size t len m} : x.tag = s "BitParameter" → par = .bits size → loadBit size x = .ok t →
      typeAttrs x = .ok (len, m) → x.children = [] →
      LoadCase rd types par x (.mk x.nameAttr (.bit t) len m [])
  | string {x l len m} : x.tag = s "StringParameter" → x.size (s "MaxLength") 0 = .ok l →
      typeAttrs x = .ok (len, m) → x.children = [] →
      LoadCase rd types par x (.mk x.nameAttr (.string l) len m [])
  | bool {x len m} : x.tag = s "BooleanParameter" → typeAttrs x = .ok (len, m) → x.children = [] →
      LoadCase rd types par x (.mk x.nameAttr (.scalar .bool) len m [])
  | int {x t len m ts} : x.tag = s "IntegerParameter" → loadInt x = .ok t →
      typeAttrs x = .ok (len, m) → loadElems rd types .other x.children = .ok ts →
      LoadCase rd types par x (.mk x.nameAttr (.scalar (.int t)) len m [])
  | enum {x bits len m ts ps} : x.tag = s "EnumParameter" → x.attr (s "Size") ≠ none →
      x.size (s "Size") 0 = .ok bits → typeAttrs x = .ok (len, m) →
      loadElems rd types .other x.children = .ok ts → enumPairs ts = .ok ps →
      LoadCase rd types par x (.mk x.nameAttr (.scalar (.enum ⟨bits / 8, ps⟩)) len m [])
  | fixed {x t len m} : x.tag = s "FixedPointParameter" → loadFixed x = .ok t →
      typeAttrs x = .ok (len, m) → x.children = [] →
      LoadCase rd types par x (.mk x.nameAttr (.scalar (.fixed t)) len m [])
  | float {x t len m} : x.tag = s "FloatingPointParameter" → loadFloat rd x = .ok t →
      typeAttrs x = .ok (len, m) → x.children = [] →
      LoadCase rd types par x (.mk x.nameAttr (.scalar (.float t)) len m [])
  | pair {x n} : x.tag = s "ValuePair" → x.num (s "Numerical") true 32 0 = .ok n → x.children = [] →
      LoadCase rd types par x (.mk ((x.attr (s "Literal")).getD []) (.pair (BitVec.ofInt 32 n)) 0 none [])
  | adaptation {x} : x.tag = s "LinearAdaptation" ∨ x.tag = s "LogarithmicAdaptation" →
      x.children = [] → LoadCase rd types par x (.mk [] .adaptation 0 none [])

theorem loadElem_cases {types : List Str} {par : Par} {x : SXml} {t : TElem}
    (h : loadElem rd types par x = .ok t) : LoadCase rd types par x t := by
  obtain ⟨tag, attrs, cs⟩ := x
  unfold loadElem at h
  by_cases htag : tag = s "Component"
  · rw [if_pos htag] at h
    split at h
    · cases h
    · rename_i i hi
      by_cases hp : par = .type i
      · rw [if_pos hp] at h; cases h
      · rw [if_neg hp] at h
        simp only [Out.bind_ok, Out.ok.injEq] at h
        obtain ⟨a, ha, ts, hts, rfl⟩ := h
        exact .comp htag hi hp ha hts
  rw [if_neg htag] at h
  clear htag
  by_cases htag : tag = s "ParameterBlock"
  · rw [if_pos htag] at h
    simp only [Out.bind_ok, Out.ok.injEq] at h
    obtain ⟨a, ha, ts, hts, rfl⟩ := h
    exact .block htag ha hts
  rw [if_neg htag] at h
  clear htag
  by_cases htag : tag = s "BitParameterBlock"
  · rw [if_pos htag] at h
    simp only [Out.bind_ok, Out.ok.injEq] at h
    obtain ⟨b, hb, a, ha, ts, hts, rfl⟩ := h
    exact .bitBlock htag hb ha hts
  rw [if_neg htag] at h
  clear htag
  by_cases htag : tag = s "BitParameter"
  · rw [if_pos htag] at h
    split at h
    · simp only [Out.bind_ok, Out.ok.injEq] at h
      obtain ⟨b, hb, a, ha, u, hu, rfl⟩ := h
      exact .bit htag rfl hb ha (noChildren_ok hu)
    · cases h
  rw [if_neg htag] at h
  clear htag
  by_cases htag : tag = s "StringParameter"
  · rw [if_pos htag] at h
    simp only [Out.bind_ok, Out.ok.injEq] at h
    obtain ⟨b, hb, a, ha, u, hu, rfl⟩ := h
    exact .string htag hb ha (noChildren_ok hu)
  rw [if_neg htag] at h
  clear htag
  by_cases htag : tag = s "BooleanParameter"
  · rw [if_pos htag] at h
    simp only [Out.bind_ok, Out.ok.injEq] at h
    obtain ⟨a, ha, u, hu, rfl⟩ := h
    exact .bool htag ha (noChildren_ok hu)
  rw [if_neg htag] at h
  clear htag
  by_cases htag : tag = s "IntegerParameter"
  · rw [if_pos htag] at h
    simp only [Out.bind_ok, Out.ok.injEq] at h
    obtain ⟨b, hb, a, ha, ts, hts, rfl⟩ := h
    exact .int htag hb ha hts
  rw [if_neg htag] at h
  clear htag
  by_cases htag : tag = s "EnumParameter"
  · rw [if_pos htag] at h
    split at h
    · cases h
    · rename_i hsz
      simp only [Out.bind_ok, Out.ok.injEq] at h
      obtain ⟨b, hb, a, ha, ts, hts, ps, hps, rfl⟩ := h
      exact .enum htag (by rw [hsz]; simp) hb ha hts hps
  rw [if_neg htag] at h
  clear htag
  by_cases htag : tag = s "FixedPointParameter"
  · rw [if_pos htag] at h
    simp only [Out.bind_ok, Out.ok.injEq] at h
    obtain ⟨b, hb, a, ha, u, hu, rfl⟩ := h
    exact .fixed htag hb ha (noChildren_ok hu)
  rw [if_neg htag] at h
  clear htag
  by_cases htag : tag = s "FloatingPointParameter"
  · rw [if_pos htag] at h
    simp only [Out.bind_ok, Out.ok.injEq] at h
    obtain ⟨b, hb, a, ha, u, hu, rfl⟩ := h
    exact .float htag hb ha (noChildren_ok hu)
  rw [if_neg htag] at h
  clear htag
  by_cases htag : tag = s "ValuePair"
  · rw [if_pos htag] at h
    simp only [Out.bind_ok, Out.ok.injEq] at h
    obtain ⟨b, hb, u, hu, rfl⟩ := h
    exact .pair htag hb (noChildren_ok hu)
  rw [if_neg htag] at h
  clear htag
  by_cases htag : tag = s "LinearAdaptation" ∨ tag = s "LogarithmicAdaptation"
  · rw [if_pos htag] at h
    simp only [Out.bind_ok, Out.ok.injEq] at h
    obtain ⟨u, hu, rfl⟩ := h
    exact .adaptation htag (noChildren_ok hu)
  rw [if_neg htag] at h
  split at h <;> cases h

theorem enumPairs_ok {types : List Str} {par : Par} : ∀ {xs : List SXml} {ts : List TElem}
    {ps : List (Str × BitVec 32)}, loadElems rd types par xs = .ok ts → enumPairs ts = .ok ps → Pairs xs ps
  | [], ts, ps, h, hp => by
    simp only [loadElems, Out.ok.injEq] at h; subst h
    simp only [enumPairs, Out.ok.injEq] at hp; subst hp
    exact .nil
  | x :: xs, ts, ps, h, hp => by
    simp only [loadElems, Out.bind_ok, Out.ok.injEq] at h
    obtain ⟨t, ht, us, hus, rfl⟩ := h
    have hc := loadElem_cases ht
    cases hc with
    | pair htag hn _ =>
      simp only [enumPairs, Out.bind_ok, Out.ok.injEq] at hp
      obtain ⟨qs, hq, rfl⟩ := hp
      obtain ⟨n1, n2⟩ := SXml.num_ok hn
      exact .cons htag n1 (by simpa [FitsSigned] using n2 (by decide)) (enumPairs_ok hus hq)
    | _ => simp [enumPairs] at hp

mutual
theorem instElem_ok {libx : List SXml} {lib : List TypeDef} (hl : LibOk rd libx lib)
    {F : Nat → Run (List IElem)}
    (hF : ∀ j is x ts, F j = some (.ok is) → libx[j]? = some x → Chain libx x ts →
      Insts rd libx none (ts.flatMap SXml.children) is) (k : Nat) :
    ∀ (x : SXml) (par : Par) (t : TElem) (i : IElem),
      loadElem rd ((libx.map typeName).take k) par x = .ok t → instElem lib F t = some (.ok i) →
      Inst rd libx par.blk x i
  | .mk tag attrs cs, par, t, i, h, hi => by
    have hc := loadElem_cases h
    have hsub : ∀ par' ts is, loadElems rd ((libx.map typeName).take k) par' cs = .ok ts →
        instElems lib F ts = some (.ok is) → Insts rd libx par'.blk cs is :=
      fun par' ts is h1 h2 => instElems_ok hl hF k cs par' ts is h1 h2
    cases hc with
    | comp htag hf hp ha hts =>
      simp only [instElem, Run.bind_ok, Option.some.injEq, Out.ok.injEq] at hi
      obtain ⟨own, ho, rest, hr, rfl⟩ := hi
      obtain ⟨a1, -, a2⟩ := typeAttrs_ok ha
      obtain ⟨-, y, hy, hn⟩ := findType_ok hf
      have hyl : _ := (List.getElem?_eq_some_iff.1 hy).1
      obtain ⟨ts, hch, hmaps⟩ := hl.chain lib.length _ y hy (by rw [hl.len]; exact hyl)
      have hins := Insts.append (hsub .other _ _ hts ho) (hF _ _ _ _ hr hy hch)
      split
      · rename_i h0
        rw [h0] at a1
        exact .comp htag hn hch a1 (a2 _ _ hmaps) hins
      · exact .comps htag hn hch a1 (by omega) (a2 _ _ hmaps) hins (arrayElems_numbered _ _ _ _)
    | block htag ha hts =>
      simp only [instElem, Run.bind_ok, Option.some.injEq, Out.ok.injEq] at hi
      obtain ⟨own, ho, rfl⟩ := hi
      obtain ⟨a1, -, a2⟩ := typeAttrs_ok ha
      have hm := a2 [] [] .nil
      rw [List.append_nil] at hm
      have hins := hsub .other _ _ hts ho
      split
      · rename_i h0
        rw [h0] at a1
        exact .block htag a1 hm hins
      · exact .blocks htag a1 (by omega) hm hins (arrayElems_numbered _ _ _ _)
    | bitBlock htag hb ha hts =>
      simp only [instElem, Run.bind_ok, Option.some.injEq, Out.ok.injEq] at hi
      obtain ⟨own, ho, rfl⟩ := hi
      obtain ⟨a1, -, a2⟩ := typeAttrs_ok ha
      have hm := a2 [] [] .nil
      rw [List.append_nil] at hm
      exact .bitBlock htag (SXml.size_ok (by decide) hb).1 hm (hsub _ _ _ hts ho)
    | bit htag hp hb ha _ =>
      simp only [instElem, Option.some.injEq, Out.ok.injEq] at hi
      subst hi; subst hp
      obtain ⟨a1, -, a2⟩ := typeAttrs_ok ha
      have hm := a2 [] [] .nil
      rw [List.append_nil] at hm
      exact .bit (loadBit_ok htag hb) hm
    | string htag hb ha _ =>
      simp only [instElem, Option.some.injEq, Out.ok.injEq] at hi
      subst hi
      obtain ⟨a1, -, a2⟩ := typeAttrs_ok ha
      have hm := a2 [] [] .nil
      rw [List.append_nil] at hm
      exact .string htag (SXml.size_ok (by decide) hb).1 hm
    | bool htag ha _ =>
      simp only [instElem, Option.some.injEq, Out.ok.injEq] at hi
      subst hi
      obtain ⟨a1, -, a2⟩ := typeAttrs_ok ha
      have hm := a2 [] [] .nil
      rw [List.append_nil] at hm
      exact .scalar (.bool htag) a1 hm
    | int htag hb ha _ =>
      simp only [instElem, Option.some.injEq, Out.ok.injEq] at hi
      subst hi
      obtain ⟨a1, -, a2⟩ := typeAttrs_ok ha
      have hm := a2 [] [] .nil
      rw [List.append_nil] at hm
      exact .scalar (loadInt_ok htag hb) a1 hm
    | enum htag hz hb ha hts hps =>
      simp only [instElem, Option.some.injEq, Out.ok.injEq] at hi
      subst hi
      obtain ⟨a1, -, a2⟩ := typeAttrs_ok ha
      have hm := a2 [] [] .nil
      rw [List.append_nil] at hm
      exact .scalar (.enum htag hz (SXml.size_ok (by decide) hb).1 (enumPairs_ok hts hps)) a1 hm
    | fixed htag hb ha _ =>
      simp only [instElem, Option.some.injEq, Out.ok.injEq] at hi
      subst hi
      obtain ⟨a1, -, a2⟩ := typeAttrs_ok ha
      have hm := a2 [] [] .nil
      rw [List.append_nil] at hm
      exact .scalar (loadFixed_ok htag hb) a1 hm
    | float htag hb ha _ =>
      simp only [instElem, Option.some.injEq, Out.ok.injEq] at hi
      subst hi
      obtain ⟨a1, -, a2⟩ := typeAttrs_ok ha
      have hm := a2 [] [] .nil
      rw [List.append_nil] at hm
      exact .scalar (loadFloat_ok htag hb) a1 hm
    | pair htag hn _ => simp [instElem] at hi
    | adaptation htag _ => simp [instElem] at hi
theorem instElems_ok {libx : List SXml} {lib : List TypeDef} (hl : LibOk rd libx lib)
    {F : Nat → Run (List IElem)}
    (hF : ∀ j is x ts, F j = some (.ok is) → libx[j]? = some x → Chain libx x ts →
      Insts rd libx none (ts.flatMap SXml.children) is) (k : Nat) :
    ∀ (xs : List SXml) (par : Par) (ts : List TElem) (is : List IElem),
      loadElems rd ((libx.map typeName).take k) par xs = .ok ts → instElems lib F ts = some (.ok is) →
      Insts rd libx par.blk xs is
  | [], par, ts, is, h, hi => by
    simp only [loadElems, Out.ok.injEq] at h; subst h
    simp only [instElems, Option.some.injEq, Out.ok.injEq] at hi; subst hi
    exact .nil
  | x :: xs, par, ts, is, h, hi => by
    simp only [loadElems, Out.bind_ok, Out.ok.injEq] at h
    obtain ⟨t, ht, us, hus, rfl⟩ := h
    simp only [instElems, Run.bind_ok, Option.some.injEq, Out.ok.injEq] at hi
    obtain ⟨i, hi1, js, hj, rfl⟩ := hi
    exact .cons (instElem_ok hl hF k x par t i ht hi1) (instElems_ok hl hF k xs par us js hus hj)
end

theorem typeContent_ok {libx : List SXml} {lib : List TypeDef} (hl : LibOk rd libx lib) :
    ∀ fuel j is x ts, typeContent lib fuel j = some (.ok is) → libx[j]? = some x → Chain libx x ts →
      Insts rd libx none (ts.flatMap SXml.children) is
  | 0, _, _, _, _, h, _, _ => by simp [typeContent] at h
  | fuel + 1, j, is, x, ts, h, hx, hc => by
    obtain ⟨t, ht⟩ := hl.get hx
    have hload := hl.ok j t x ht hx
    obtain ⟨-, -, hcs, -⟩ := loadType_ok hload
    simp only [typeContent, ht, Run.bind_ok] at h
    obtain ⟨own, ho, h⟩ := h
    have h1 := instElems_ok hl (typeContent_ok hl fuel) (j + 1) _ _ _ _ hcs ho
    rcases hl.ext hx ht with ⟨e1, e2⟩ | ⟨e, i, y, e1, e2, -, e4, e5⟩
    · simp only [e2, Option.some.injEq, Out.ok.injEq] at h
      subst h
      cases hc with
      | last => simpa [Par.blk] using h1
      | more e3 => rw [e1] at e3; cases e3
    · simp only [e2, Run.bind_ok, Option.some.injEq, Out.ok.injEq] at h
      obtain ⟨rest, hr, rfl⟩ := h
      cases hc with
      | last e3 => rw [e1] at e3; cases e3
      | more e3 e6 e7 =>
        rw [e1] at e3; cases e3
        cases TypeNamed.unique e5 e6
        have h2 := typeContent_ok hl fuel i rest y _ hr e4 e7
        simpa [Par.blk] using Insts.append h1 h2

/-! ## Loading ends -/

theorem Run.bind_ne_none {α β : Type} {x : Run α} {f : α → Run β} (hx : x ≠ none)
    (hf : ∀ a, x = some (.ok a) → f a ≠ none) : Run.bind x f ≠ none := by
  rcases x with _ | (_ | _ | _)
  · exact absurd rfl hx
  · exact hf _ rfl
  · simp [Run.bind]
  · simp [Run.bind]

theorem typeName_ne_nil (x : SXml) : typeName x ≠ [] := by
  unfold typeName
  split
  · decide
  · assumption

theorem findType_ne_nil {libx : List SXml} {k i : Nat} {o : Option Str}
    (h : findType ((libx.map typeName).take k) (o.getD []) = some i) :
    ∃ n, o = some n ∧ findType ((libx.map typeName).take k) n = some i := by
  cases o with
  | some n => exact ⟨n, rfl, h⟩
  | none =>
    obtain ⟨-, x, -, b, a, -, h1, -⟩ := findType_ok h
    exact absurd h1 (typeName_ne_nil x)

mutual
theorem instElem_ends {libx : List SXml} {lib : List TypeDef} {F : Nat → Run (List IElem)} {k : Nat} :
    ∀ (x : SXml) (par : Par) (t : TElem), loadElem rd ((libx.map typeName).take k) par x = .ok t →
      (∀ n i, RefersTo n x → findType ((libx.map typeName).take k) n = some i → F i ≠ none) →
      instElem lib F t ≠ none
  | .mk tag attrs cs, par, t, h, hF => by
    have hc := loadElem_cases h
    have hsub : ∀ par' ts, tag ∈ groupTags → loadElems rd ((libx.map typeName).take k) par' cs = .ok ts →
        instElems lib F ts ≠ none :=
      fun par' ts hg h1 => instElems_ends cs par' ts h1
        (fun c hc n i hr hf => hF n i (.inside hg hc hr) hf)
    cases hc with
    | comp htag hf hp ha hts =>
      simp only [instElem]
      obtain ⟨n, hn, hf'⟩ := findType_ne_nil hf
      have hg : tag ∈ groupTags := by rw [show tag = s "Component" from htag]; decide
      exact Run.bind_ne_none (hsub _ _ hg hts) fun a _ =>
        Run.bind_ne_none (hF n _ (.here htag hn) hf') fun b _ => by simp
    | block htag ha hts =>
      simp only [instElem]
      have hg : tag ∈ groupTags := by rw [show tag = s "ParameterBlock" from htag]; decide
      exact Run.bind_ne_none (hsub _ _ hg hts) fun a _ => by simp
    | bitBlock htag hb ha hts =>
      simp only [instElem]
      have hg : tag ∈ groupTags := by rw [show tag = s "BitParameterBlock" from htag]; decide
      exact Run.bind_ne_none (hsub _ _ hg hts) fun a _ => by simp
    | _ => simp [instElem]
theorem instElems_ends {libx : List SXml} {lib : List TypeDef} {F : Nat → Run (List IElem)} {k : Nat} :
    ∀ (xs : List SXml) (par : Par) (ts : List TElem),
      loadElems rd ((libx.map typeName).take k) par xs = .ok ts →
      (∀ x ∈ xs, ∀ n i, RefersTo n x → findType ((libx.map typeName).take k) n = some i → F i ≠ none) →
      instElems lib F ts ≠ none
  | [], par, ts, h, _ => by
    simp only [loadElems, Out.ok.injEq] at h; subst h
    simp [instElems]
  | x :: xs, par, ts, h, hF => by
    simp only [loadElems, Out.bind_ok, Out.ok.injEq] at h
    obtain ⟨t, ht, us, hus, rfl⟩ := h
    simp only [instElems]
    exact Run.bind_ne_none (instElem_ends x par t ht (hF x (by simp))) fun a _ =>
      Run.bind_ne_none (instElems_ends xs par us hus (fun y hy => hF y (by simp [hy]))) fun b _ => by simp
end

theorem typeContent_ends {libx : List SXml} {lib : List TypeDef} (hl : LibOk rd libx lib)
    (hns : ∀ t ∈ libx, ∀ c ∈ t.children, ¬ RefersTo (typeName t) c) :
    ∀ fuel j, j < fuel → typeContent lib fuel j ≠ none
  | 0, _, h => by omega
  | fuel + 1, j, hj => by
    simp only [typeContent]
    cases ht : lib[j]? with
    | none => simp
    | some t =>
      have hjl : j < libx.length := by rw [← hl.len]; exact (List.getElem?_eq_some_iff.1 ht).1
      have hx : libx[j]? = some libx[j] := List.getElem?_eq_getElem hjl
      obtain ⟨-, -, hcs, -⟩ := loadType_ok (hl.ok j t _ ht hx)
      refine Run.bind_ne_none (instElems_ends _ _ _ hcs ?_) fun own _ => ?_
      · intro c hc n i hr hf
        obtain ⟨hi, y, hy, hn⟩ := findType_ok hf
        apply typeContent_ends hl hns fuel i
        by_cases hij : i = j
        · subst hij
          rw [hx] at hy; cases hy
          obtain ⟨_, _, _, hn', _⟩ := hn
          subst hn'
          exact absurd hr (hns _ (List.getElem_mem hjl) c hc)
        · omega
      · rcases hl.ext hx ht with ⟨-, e2⟩ | ⟨e, i, y, -, e2, e3, -, -⟩
        · simp [e2]
        · simp only [e2]
          exact Run.bind_ne_none (typeContent_ends hl hns fuel i (by omega)) fun _ _ => by simp

/-! ## More nested calls do not change a result -/

theorem Run.bind_mono {α β : Type} {x y : Run α} {f g : α → Run β} {r : Out β}
    (hx : ∀ a, x = some a → y = some a) (hf : ∀ a r, f a = some r → g a = some r)
    (h : Run.bind x f = some r) : Run.bind y g = some r := by
  rcases x with _ | (a | _ | _)
  · simp [Run.bind] at h
  · rw [hx _ rfl]; exact hf a r h
  · rw [hx _ rfl]; exact h
  · rw [hx _ rfl]; exact h

mutual
theorem instElem_mono {lib : List TypeDef} {F G : Nat → Run (List IElem)}
    (hFG : ∀ i r, F i = some r → G i = some r) :
    ∀ (t : TElem) r, instElem lib F t = some r → instElem lib G t = some r
  | .mk name data len map cs, r, h => by
    cases data with
    | comp i =>
      simp only [instElem] at h ⊢
      exact Run.bind_mono (instElems_mono hFG cs)
        (fun a r h => Run.bind_mono (hFG i) (fun _ _ h => h) h) h
    | block =>
      simp only [instElem] at h ⊢
      exact Run.bind_mono (instElems_mono hFG cs) (fun _ _ h => h) h
    | bitBlock size =>
      simp only [instElem] at h ⊢
      exact Run.bind_mono (instElems_mono hFG cs) (fun _ _ h => h) h
    | _ => simpa only [instElem] using h
theorem instElems_mono {lib : List TypeDef} {F G : Nat → Run (List IElem)}
    (hFG : ∀ i r, F i = some r → G i = some r) :
    ∀ (ts : List TElem) r, instElems lib F ts = some r → instElems lib G ts = some r
  | [], r, h => by simpa only [instElems] using h
  | t :: ts, r, h => by
    simp only [instElems] at h ⊢
    exact Run.bind_mono (instElem_mono hFG t)
      (fun a r h => Run.bind_mono (instElems_mono hFG ts) (fun _ _ h => h) h) h
end

theorem typeContent_mono {lib : List TypeDef} : ∀ fuel i r, typeContent lib fuel i = some r →
    typeContent lib (fuel + 1) i = some r
  | 0, _, _, h => by simp [typeContent] at h
  | fuel + 1, i, r, h => by
    rw [typeContent] at h ⊢
    cases ht : lib[i]? with
    | none => simpa [ht] using h
    | some t =>
      simp only [ht] at h ⊢
      refine Run.bind_mono (instElems_mono (typeContent_mono fuel) t.children) (fun a r h => ?_) h
      cases he : t.ext with
      | none => simpa [he] using h
      | some j =>
        simp only [he] at h ⊢
        exact Run.bind_mono (typeContent_mono fuel j) (fun _ _ h => h) h

theorem typeContent_mono_le {lib : List TypeDef} {fuel fuel' : Nat} (hle : fuel ≤ fuel') {i : Nat}
    {r : Out (List IElem)} (h : typeContent lib fuel i = some r) : typeContent lib fuel' i = some r := by
  induction hle with
  | refl => exact h
  | step _ ih => exact typeContent_mono _ _ _ ih

theorem loadInstances_mono {fuel fuel' : Nat} (hle : fuel ≤ fuel') {x : SXml} {r : Out IElem}
    (h : loadInstances rd fuel x = some r) : loadInstances rd fuel' x = some r := by
  unfold loadInstances at h ⊢
  exact Run.bind_mono (fun _ h => h) (fun a r h =>
    Run.bind_mono (instElems_mono (fun i r h => typeContent_mono_le hle h) _) (fun _ _ h => h) h) h

/-! ## A type that contains a component of its own type -/

theorem mem_chain {lib : List SXml} {t t' c : SXml} {ts ys : List SXml} (h : Chain lib t' ts)
    (e : t = t') (hc : c ∈ t.children) : c ∈ ys ++ ts.flatMap SXml.children := by
  subst e
  cases h <;> simp [hc]

mutual
theorem Inst.no_self {lib : List SXml} {n : Str} {t c : SXml} (hn : TypeNamed lib n t)
    (hc : c ∈ t.children) (hr : RefersTo n c) {blk : Option Nat} {x : SXml} {i : IElem}
    (h : Inst rd lib blk x i) (hx : RefersTo n x) : False := by
  match h with
  | .scalar h1 _ _ =>
    cases hx with
    | here h2 _ => cases h1 <;> simp_all [s]
    | inside h2 _ _ => cases h1 <;> simp_all [groupTags, s]
  | .string h1 _ _ =>
    cases hx with
    | here h2 _ => simp_all [s]
    | inside h2 _ _ => simp_all [groupTags, s]
  | .bit h1 _ =>
    cases hx with
    | here h2 _ => cases h1; simp_all [s]
    | inside h2 _ _ => cases h1; simp_all [groupTags, s]
  | .bitBlock h1 _ _ hi =>
    cases hx with
    | here h2 _ => simp_all [s]
    | inside _ h3 h4 => exact Insts.no_self hn hc hr hi h3 h4
  | .block h1 _ _ hi =>
    cases hx with
    | here h2 _ => simp_all [s]
    | inside _ h3 h4 => exact Insts.no_self hn hc hr hi h3 h4
  | .blocks h1 _ _ _ hi _ =>
    cases hx with
    | here h2 _ => simp_all [s]
    | inside _ h3 h4 => exact Insts.no_self hn hc hr hi h3 h4
  | .comp h1 hn' hch _ _ hi =>
    cases hx with
    | here h2 h3 =>
      exact Insts.no_self hn hc hr hi (c' := c) (mem_chain hch
        (TypeNamed.unique hn (by simpa [h3] using hn')) hc) hr
    | inside _ h3 h4 => exact Insts.no_self hn hc hr hi (by simp [h3]) h4
  | .comps h1 hn' hch _ _ _ hi _ =>
    cases hx with
    | here h2 h3 =>
      exact Insts.no_self hn hc hr hi (c' := c) (mem_chain hch
        (TypeNamed.unique hn (by simpa [h3] using hn')) hc) hr
    | inside _ h3 h4 => exact Insts.no_self hn hc hr hi (by simp [h3]) h4
theorem Insts.no_self {lib : List SXml} {n : Str} {t c : SXml} (hn : TypeNamed lib n t)
    (hc : c ∈ t.children) (hr : RefersTo n c) {blk : Option Nat} {xs : List SXml} {is : List IElem}
    (h : Insts rd lib blk xs is) {c' : SXml} (hx : c' ∈ xs) (hx' : RefersTo n c') : False := by
  match h with
  | .nil => simp at hx
  | .cons h1 h2 =>
    exact (List.mem_cons.1 hx).elim (fun e => Inst.no_self hn hc hr h1 (e ▸ hx'))
      (fun hx => Insts.no_self hn hc hr h2 hx hx')
end

/-! ## A declaration declares one element only -/

theorem PlainInt.unique {t : Str} {n m : Int} (h : PlainInt t n) (h' : PlainInt t m) : n = m := by
  have hlt : ∀ k : Nat, k < 2 ^ k := fun k => Nat.lt_two_pow_self
  have hb : ∀ k : Int, k.natAbs ≤ n.natAbs + m.natAbs →
      -((2 ^ (n.natAbs + m.natAbs + 1 - 1) : Nat) : Int) ≤ k ∧
      k < ((2 ^ (n.natAbs + m.natAbs + 1 - 1) : Nat) : Int) := by
    intro k hk
    have := hlt (n.natAbs + m.natAbs)
    simp only [Nat.add_sub_cancel]
    omega
  have h1 := (convertTo_signed_iff (n.natAbs + m.natAbs + 1) t n).2 ⟨h, hb n (by omega)⟩
  have h2 := (convertTo_signed_iff (n.natAbs + m.natAbs + 1) t m).2 ⟨h', hb m (by omega)⟩
  rw [h1] at h2
  exact Option.some.inj h2

theorem NumAttr.unique {x : SXml} {name : Str} {d n m : Int} (h : NumAttr x name d n)
    (h' : NumAttr x name d m) : n = m := by
  rcases h with ⟨h1, rfl⟩ | ⟨t, h1, h2⟩ <;> rcases h' with ⟨h3, rfl⟩ | ⟨u, h3, h4⟩
  · rfl
  · rw [h1] at h3; cases h3
  · rw [h1] at h3; cases h3
  · rw [h1] at h3; cases h3; exact PlainInt.unique h2 h4

theorem NumAttr.unique_nat {x : SXml} {name : Str} {d : Int} {n m : Nat}
    (h : NumAttr x name d (n : Nat)) (h' : NumAttr x name d (m : Nat)) : n = m := by
  have := NumAttr.unique h h'; omega

theorem SignedAttr.unique {x : SXml} {a b : Bool} (h : SignedAttr x a) (h' : SignedAttr x b) : a = b := by
  rcases h with ⟨h1, rfl⟩ | ⟨t, h1, h2, rfl⟩ | ⟨t, h1, h2, rfl⟩ <;>
  rcases h' with ⟨h3, rfl⟩ | ⟨u, h3, h4, rfl⟩ | ⟨u, h3, h4, rfl⟩ <;>
  first
  | rfl
  | (exfalso; rw [h1] at h3; cases h3; done)
  | (exfalso; rw [h1] at h3; cases h3
     simp only [List.mem_cons, List.not_mem_nil, or_false] at h2 h4
     rcases h2 with rfl | rfl | rfl <;> revert h4 <;> decide)

theorem Pairs.unique {xs : List SXml} {ps qs : List (Str × BitVec 32)} (h : Pairs xs ps)
    (h' : Pairs xs qs) : ps = qs := by
  induction h generalizing qs with
  | nil => cases h'; rfl
  | cons _ h2 _ _ ih => cases h' with
    | cons _ h4 _ h5 => rw [ih h5, NumAttr.unique h2 h4]

/-- Distinct tags. -/
theorem tag_ne {x : SXml} {a b : Str} (h : x.tag = a) (h' : x.tag = b) (hab : decide (a = b) = false) :
    False := by
  rw [h] at h'
  simp [h'] at hab

theorem Scalar.unique {x : SXml} {t u : ScalarType} (h : Scalar rd x t) (h' : Scalar rd x u) : t = u := by
  cases h with
  | bool h1 => cases h' with
    | bool => rfl
    | int h2 => exact (tag_ne h1 h2 (by decide)).elim
    | enum h2 => exact (tag_ne h1 h2 (by decide)).elim
    | fixed h2 => exact (tag_ne h1 h2 (by decide)).elim
    | float h2 => exact (tag_ne h1 h2 (by decide)).elim
  | int h1 a1 a2 a3 a4 a5 a6 => cases h' with
    | bool h2 => exact (tag_ne h1 h2 (by decide)).elim
    | @int size' _ _ _ h2 b1 b2 b3 b4 b5 b6 =>
      have hs := NumAttr.unique a1 b1
      cases SignedAttr.unique a3 b3
      obtain rfl : size' = _ := Int.ofNat.inj (Int.eq_of_mul_eq_mul_left (a := 8) (by decide) hs.symm)
      rw [NumAttr.unique a4 b4, NumAttr.unique a6 b6]
    | enum h2 => exact (tag_ne h1 h2 (by decide)).elim
    | fixed h2 => exact (tag_ne h1 h2 (by decide)).elim
    | float h2 => exact (tag_ne h1 h2 (by decide)).elim
  | enum h1 _ a1 a2 => cases h' with
    | bool h2 => exact (tag_ne h1 h2 (by decide)).elim
    | int h2 => exact (tag_ne h1 h2 (by decide)).elim
    | enum h2 _ b1 b2 => rw [NumAttr.unique_nat a1 b1, Pairs.unique a2 b2]
    | fixed h2 => exact (tag_ne h1 h2 (by decide)).elim
    | float h2 => exact (tag_ne h1 h2 (by decide)).elim
  | fixed h1 a1 a2 a3 => cases h' with
    | bool h2 => exact (tag_ne h1 h2 (by decide)).elim
    | int h2 => exact (tag_ne h1 h2 (by decide)).elim
    | enum h2 => exact (tag_ne h1 h2 (by decide)).elim
    | fixed h2 b1 b2 b3 => rw [NumAttr.unique_nat a1 b1, NumAttr.unique_nat a2 b2, NumAttr.unique_nat a3 b3]
    | float h2 => exact (tag_ne h1 h2 (by decide)).elim
  | float h1 _ a1 a2 => cases h' with
    | bool h2 => exact (tag_ne h1 h2 (by decide)).elim
    | int h2 => exact (tag_ne h1 h2 (by decide)).elim
    | enum h2 => exact (tag_ne h1 h2 (by decide)).elim
    | fixed h2 => exact (tag_ne h1 h2 (by decide)).elim
    | float h2 _ b1 b2 =>
      rw [FloatAttr.unique (neg_ne_zero.2 f32Max_pos.ne') a1 b1, FloatAttr.unique f32Max_pos.ne' a2 b2]

theorem Bits.unique {size : Nat} {x : SXml} {t u : BitType} (h : Bits size x t) (h' : Bits size x u) :
    t = u := by
  cases h with
  | mk _ a1 a2 _ _ _ _ a3 => cases h' with
    | mk _ b1 b2 _ _ _ _ b3 =>
      cases NumAttr.unique_nat a2 b2
      rw [NumAttr.unique_nat a1 b1, NumAttr.unique_nat a3 b3]

theorem Maps.unique {xs : List SXml} {ms ns : List MData} (h : Maps xs ms) (h' : Maps xs ns) : ms = ns := by
  induction h generalizing ns with
  | nil => cases h'; rfl
  | none h1 _ ih => cases h' with
    | none _ h3 => exact ih h3
    | some h2 h3 =>
      rcases h1 with h1 | h1
      · rw [h1] at h2; cases h2
      · rw [h1] at h2; cases h2; exact absurd rfl h3
  | some h1 h2 h3 _ ih => cases h' with
    | none h4 _ =>
      rcases h4 with h4 | h4
      · rw [h1] at h4; cases h4
      · rw [h1] at h4; cases h4; exact absurd rfl h2
    | some h4 _ h5 h6 =>
      rw [h1] at h4; cases h4
      rw [h3] at h5; cases h5
      rw [ih h6]

theorem Numbered.unique {n : Nat} {k : EKind} {ms : List MData} {c es fs : List IElem}
    (h : Numbered n k ms c es) (h' : Numbered n k ms c fs) : es = fs := by
  apply List.ext_getElem?
  intro i
  by_cases hi : i < n
  · rw [h.2 i hi, h'.2 i hi]
  · rw [List.getElem?_eq_none (by rw [h.1]; omega), List.getElem?_eq_none (by rw [h'.1]; omega)]

/-- The tags of the scalar parameters. -/
theorem Scalar.tag {x : SXml} {t : ScalarType} (h : Scalar rd x t) :
    x.tag ∈ [s "BooleanParameter", s "IntegerParameter", s "EnumParameter", s "FixedPointParameter",
      s "FloatingPointParameter"] := by
  cases h <;> simp_all

theorem tag_not_mem {x : SXml} {a : Str} {l : List Str} (h : x.tag = a) (h' : x.tag ∈ l)
    (hab : decide (a ∈ l) = false) : False := by
  rw [h] at h'
  simp [h'] at hab

theorem Bits.tag {size : Nat} {x : SXml} {t : BitType} (h : Bits size x t) : x.tag = s "BitParameter" := by
  cases h; assumption

mutual
theorem Inst.unique {lib : List SXml} {blk : Option Nat} {x : SXml} {i j : IElem}
    (h : Inst rd lib blk x i) (h' : Inst rd lib blk x j) : i = j := by
  match h with
  | .scalar h1 a1 a2 =>
    cases h' with
    | scalar h2 b1 b2 =>
      rw [Scalar.unique h1 h2, NumAttr.unique_nat a1 b1, Maps.unique a2 b2]
    | string h2 => exact (tag_not_mem h2 (Scalar.tag h1) (by decide)).elim
    | bit h2 => exact (tag_not_mem (Bits.tag h2) (Scalar.tag h1) (by decide)).elim
    | bitBlock h2 => exact (tag_not_mem h2 (Scalar.tag h1) (by decide)).elim
    | block h2 => exact (tag_not_mem h2 (Scalar.tag h1) (by decide)).elim
    | blocks h2 => exact (tag_not_mem h2 (Scalar.tag h1) (by decide)).elim
    | comp h2 => exact (tag_not_mem h2 (Scalar.tag h1) (by decide)).elim
    | comps h2 => exact (tag_not_mem h2 (Scalar.tag h1) (by decide)).elim
  | .string h1 a1 a2 =>
    cases h' with
    | scalar h2 => exact (tag_not_mem h1 (Scalar.tag h2) (by decide)).elim
    | string h2 b1 b2 => rw [NumAttr.unique_nat a1 b1, Maps.unique a2 b2]
    | bit h2 => exact (tag_ne h1 (Bits.tag h2) (by decide)).elim
    | bitBlock h2 => exact (tag_ne h1 h2 (by decide)).elim
    | block h2 => exact (tag_ne h1 h2 (by decide)).elim
    | blocks h2 => exact (tag_ne h1 h2 (by decide)).elim
    | comp h2 => exact (tag_ne h1 h2 (by decide)).elim
    | comps h2 => exact (tag_ne h1 h2 (by decide)).elim
  | .bit h1 a2 =>
    cases h' with
    | scalar h2 => exact (tag_not_mem (Bits.tag h1) (Scalar.tag h2) (by decide)).elim
    | string h2 => exact (tag_ne (Bits.tag h1) h2 (by decide)).elim
    | bit h2 b2 => rw [Bits.unique h1 h2, Maps.unique a2 b2]
    | bitBlock h2 => exact (tag_ne (Bits.tag h1) h2 (by decide)).elim
    | block h2 => exact (tag_ne (Bits.tag h1) h2 (by decide)).elim
    | blocks h2 => exact (tag_ne (Bits.tag h1) h2 (by decide)).elim
    | comp h2 => exact (tag_ne (Bits.tag h1) h2 (by decide)).elim
    | comps h2 => exact (tag_ne (Bits.tag h1) h2 (by decide)).elim
  | .bitBlock h1 a1 a2 a3 =>
    cases h' with
    | scalar h2 => exact (tag_not_mem h1 (Scalar.tag h2) (by decide)).elim
    | string h2 => exact (tag_ne h1 h2 (by decide)).elim
    | bit h2 => exact (tag_ne h1 (Bits.tag h2) (by decide)).elim
    | bitBlock h2 b1 b2 b3 =>
      rw [NumAttr.unique_nat b1 a1] at b3 ⊢
      rw [Insts.unique a3 b3, Maps.unique a2 b2]
    | block h2 => exact (tag_ne h1 h2 (by decide)).elim
    | blocks h2 => exact (tag_ne h1 h2 (by decide)).elim
    | comp h2 => exact (tag_ne h1 h2 (by decide)).elim
    | comps h2 => exact (tag_ne h1 h2 (by decide)).elim
  | .block h1 a1 a2 a3 =>
    cases h' with
    | scalar h2 => exact (tag_not_mem h1 (Scalar.tag h2) (by decide)).elim
    | string h2 => exact (tag_ne h1 h2 (by decide)).elim
    | bit h2 => exact (tag_ne h1 (Bits.tag h2) (by decide)).elim
    | bitBlock h2 => exact (tag_ne h1 h2 (by decide)).elim
    | block h2 b1 b2 b3 => rw [Insts.unique a3 b3, Maps.unique a2 b2]
    | blocks h2 b1 b2 => have := NumAttr.unique a1 b1; omega
    | comp h2 => exact (tag_ne h1 h2 (by decide)).elim
    | comps h2 => exact (tag_ne h1 h2 (by decide)).elim
  | .blocks h1 a1 a0 a2 a3 a4 =>
    cases h' with
    | scalar h2 => exact (tag_not_mem h1 (Scalar.tag h2) (by decide)).elim
    | string h2 => exact (tag_ne h1 h2 (by decide)).elim
    | bit h2 => exact (tag_ne h1 (Bits.tag h2) (by decide)).elim
    | bitBlock h2 => exact (tag_ne h1 h2 (by decide)).elim
    | block h2 b1 => have := NumAttr.unique a1 b1; omega
    | blocks h2 b1 _ b2 b3 b4 =>
      rw [NumAttr.unique_nat b1 a1, ← Insts.unique a3 b3, ← Maps.unique a2 b2] at b4
      rw [Numbered.unique a4 b4, Maps.unique a2 b2]
    | comp h2 => exact (tag_ne h1 h2 (by decide)).elim
    | comps h2 => exact (tag_ne h1 h2 (by decide)).elim
  | .comp h1 hn hc a1 a2 a3 =>
    cases h' with
    | scalar h2 => exact (tag_not_mem h1 (Scalar.tag h2) (by decide)).elim
    | string h2 => exact (tag_ne h1 h2 (by decide)).elim
    | bit h2 => exact (tag_ne h1 (Bits.tag h2) (by decide)).elim
    | bitBlock h2 => exact (tag_ne h1 h2 (by decide)).elim
    | block h2 => exact (tag_ne h1 h2 (by decide)).elim
    | blocks h2 => exact (tag_ne h1 h2 (by decide)).elim
    | comp h2 hn' hc' b1 b2 b3 =>
      rw [TypeNamed.unique hn' hn] at hc'
      rw [Chain.unique hc' hc] at b2 b3
      rw [Insts.unique a3 b3, Maps.unique a2 b2]
    | comps h2 _ _ b1 b2 => have := NumAttr.unique a1 b1; omega
  | .comps h1 hn hc a1 a0 a2 a3 a4 =>
    cases h' with
    | scalar h2 => exact (tag_not_mem h1 (Scalar.tag h2) (by decide)).elim
    | string h2 => exact (tag_ne h1 h2 (by decide)).elim
    | bit h2 => exact (tag_ne h1 (Bits.tag h2) (by decide)).elim
    | bitBlock h2 => exact (tag_ne h1 h2 (by decide)).elim
    | block h2 => exact (tag_ne h1 h2 (by decide)).elim
    | blocks h2 => exact (tag_ne h1 h2 (by decide)).elim
    | comp h2 _ _ b1 => have := NumAttr.unique a1 b1; omega
    | comps h2 hn' hc' b1 _ b2 b3 b4 =>
      rw [TypeNamed.unique hn' hn] at hc'
      rw [Chain.unique hc' hc] at b2 b3
      rw [NumAttr.unique_nat b1 a1, ← Insts.unique a3 b3, ← Maps.unique a2 b2] at b4
      rw [Numbered.unique a4 b4, Maps.unique a2 b2]
theorem Insts.unique {lib : List SXml} {blk : Option Nat} {xs : List SXml} {is js : List IElem}
    (h : Insts rd lib blk xs is) (h' : Insts rd lib blk xs js) : is = js := by
  match h with
  | .nil => cases h'; rfl
  | .cons h1 h2 =>
    cases h' with
    | cons h3 h4 => rw [Inst.unique h1 h3, Insts.unique h2 h4]
end

end PF
