import Verif.Lemmas.StructureExport
import Verif.Lemmas.FloatingPoint
import Verif.Props.Structure

/-!
# The export of structures

C78: the exported structure of an element describes it.

Specification: `Verif/Spec/StructureExport.lean`.
-/

namespace PF
open Spec

/-- **C78**, what the export says.  At the place of each element of the structure it has an element with its name,
which declares its kind and its type: sizes, bounds, literals, lengths, positions of bits.  The bounds of
floating-point parameters are decimal numbers at most half a millionth away.  Groups and blocks have as many children. -/
theorem C78_describes {el : Elem} (wf : el.WF) (ok : TypesOk el) {p : Pos} {e : Elem} (h : el.at? p = some e) :
    ∃ x, NodeIn el.structureXml p x ∧ x.nameAttr = e.name ∧ DeclaresKind x e.kind ∧
      ((∃ k, e.kind = .group k) ∨ (∃ m, e.kind = .bitBlock m) → x.children.length = e.children.length) := by
  obtain ⟨h1, h2⟩ := node_export p (.inl wf) h
  refine ⟨_, h1, ?_, ?_, ?_⟩
  · obtain ⟨n, k, sy, cs⟩ := e
    exact k.attr_name _ n _
  · have hp := h2.params
    have hb : ∀ t, e.kind = .bit t → t.WF := by
      intro t ht
      rcases h2 with h2 | ⟨n, t', cy, rfl, h3⟩
      · cases h2 <;> simp [Elem.kind] at ht
      · simp only [Elem.kind, EKind.bit.injEq] at ht
        exact ht ▸ h3
    have ht := fun t => ok p e t h
    obtain ⟨n, k, sy, cs⟩ := e
    refine declaresKind n ht hb _ ?_
    rintro ⟨t, hk⟩
    have : cs = [] := by
      refine hp ?_ ?_
      all_goals
        intro a ha
        rcases hk with hk | ⟨m, hk⟩ <;> rw [hk] at ha <;> cases ha
    rw [this]
    rfl
  · obtain ⟨n, k, sy, cs⟩ := e
    rintro (⟨k', hk⟩ | ⟨m, hk⟩)
    all_goals
      simp only [Elem.kind] at hk
      subst hk
      exact structureXmls_length cs

/-- **C78**, partial.  The exports of elements, put in a structure document as declarations of instances, are loaded, and declare
the same elements again: same names, same order, same types and bounds, with blocks in the place of components.  Missing: elements
with bit parameter blocks (`C78_bit_blocks_refused`), and floating-point bounds that are not whole millionths (`C78_float_bounds_lost`);
`C78_describes` says what is exported in all cases. -/
theorem C78_reload_partial {rd : Reader} (hrd : ReadsDecimals rd) {els : List Elem}
    (h : ∀ el ∈ els, el.WF ∧ (∀ p e, el.at? p = some e → Exportable e.kind) ∧ TypesOk el) (fuel : Nat) (name type : Str) :
    ∃ i, loadInstances rd fuel (declaring name type (els.map Elem.structureXml)) = some (.ok i) ∧
      i.elem = .mk name (.group (s "Subsystem")) none (els.map plain) := by
  obtain ⟨ts, h1, h2⟩ := exports_load hrd (types := []) (par := .other) h
  obtain ⟨is, h3, h4⟩ := h2 [] (typeContent [] fuel)
  refine ⟨.mk name (.group (s "Subsystem")) [] is, ?_, ?_⟩
  · rw [loadInstances_declaring, h1]
    simp only [Run.bind, h3]
  · rw [IElem.elem, h4]

/-- The code violates the full claim: the size of a bit parameter block is not exported.  The export of a block is refused
when loaded: with no size, no bit parameter fits in it. -/
theorem C78_bit_blocks_refused (rd : Reader) {n : Str} {size : Nat} {sy : Option Nat} {cs : List Elem}
    (wf : (Elem.mk n (.bitBlock size) sy cs).WF) (hne : cs ≠ []) (fuel : Nat) (name type : Str) :
    loadInstances rd fuel (declaring name type [(Elem.mk n (.bitBlock size) sy cs).structureXml]) = some .err := by
  rw [loadInstances_declaring]
  obtain _ | ⟨hsz, hc⟩ := wf
  obtain ⟨c, cs, rfl⟩ := List.exists_cons_of_ne_nil hne
  obtain ⟨nm, t, cy, rfl, tw, -⟩ := hc c List.mem_cons_self
  have hb : loadElem rd [] (.bits 0) (Elem.mk nm (.bit t) cy []).structureXml = .err := by
    obtain ⟨bs, pos, bits, m⟩ := t
    obtain ⟨h1, h2, h3, h4⟩ := tw
    simp only at *
    have e : (Elem.mk nm (.bit ⟨bs, pos, bits, m⟩) cy []).structureXml =
        .mk (s "BitParameter") ([(s "Pos", natText pos), (s "Size", natText bits), (s "Max", natText m.toNat)] ++ declNameAttrs nm) [] := rfl
    rw [e]
    have hl : loadBit 0 (.mk (s "BitParameter") ([(s "Pos", natText pos), (s "Size", natText bits), (s "Max", natText m.toNat)] ++ declNameAttrs nm) []) = .err := by
      unfold loadBit
      rw [size_of_attr (n := pos) (by simp only [List.cons_append, attr_cons]; rfl) (by omega)]
      simp only [Out.bind]
      rw [size_of_attr (n := bits) (by simp only [List.cons_append, attr_cons]; rfl) (by omega)]
      simp only
      have hm : (SXml.mk (s "BitParameter") ([(s "Pos", natText pos), (s "Size", natText bits), (s "Max", natText m.toNat)] ++ declNameAttrs nm) []).attr (s "Max") =
          some (natText m.toNat) := by
        simp only [List.cons_append, attr_cons]; rfl
      rw [hm]
      simp only [convertTo_natText m.isLt, BitType.load]
      rw [if_pos (by omega)]
    unfold loadElem
    simp (decide := true) only [if_true, if_false, hl, Out.bind]
  have hx : loadElem rd [] .other (Elem.mk n (.bitBlock size) sy (.mk nm (.bit t) cy [] :: cs)).structureXml = .err := by
    have e : (Elem.mk n (.bitBlock size) sy (.mk nm (.bit t) cy [] :: cs)).structureXml =
        .mk (s "BitParameterBlock") (declNameAttrs n) ((Elem.mk nm (.bit t) cy []).structureXml :: Elem.structureXmls cs) := rfl
    rw [e, loadElem.eq_def]
    have hs : ∀ ys, (SXml.mk (s "BitParameterBlock") (declNameAttrs n) ys).size (s "Size") 0 = .ok 0 := by
      intro ys
      unfold SXml.size SXml.num
      rw [attr_declNameAttrs (by decide)]
      rfl
    have hl : ∀ ys, loadElems rd [] (.bits 0) ((Elem.mk nm (.bit t) cy []).structureXml :: ys) = .err := by
      intro ys
      rw [loadElems, hb]
      rfl
    simp (decide := true) only [if_true, if_false, hs, typeAttrs_declNameAttrs, Out.bind, Nat.zero_div, hl]
  rw [loadElems, hx]
  rfl

/-- The sample block is such a block. -/
example (rd : Reader) : loadInstances rd 3 (declaring (s "sub") (s "Virtual") [Sample.block.structureXml]) = some .err :=
  C78_bit_blocks_refused rd Sample.block_wf (by decide) 3 _ _

/-- The code violates the full claim: six decimals are exported of the bounds of a floating-point parameter.  A parameter between
0 and any positive number below half a millionth comes back as one that can only be 0. -/
theorem C78_float_bounds_lost {rd : Reader} (hrd : ReadsDecimals rd) {v : BitVec 32} (hf : F32Finite v) (h0 : 0 < f32Val v)
    (h1 : f32Val v < 1 / (2 * 10 ^ 6)) (n : Str) (sy : Option Nat) (fuel : Nat) (name type : Str) :
    ∃ i, loadInstances rd fuel (declaring name type [(Elem.mk n (.scalar (.float ⟨0#32, v⟩)) sy []).structureXml]) = some (.ok i) ∧
      i.elem = .mk name (.group (s "Subsystem")) none [.mk n (.scalar (.float ⟨0#32, 0#32⟩)) none []] := by
  have z : f32Val 0#32 = 0 := by rw [f32Val_eq]; simp [f32Units, f32Mag, f32Exp, f32Man]
  have zf : F32Finite 0#32 := by decide
  have zm : Millionths 0#32 := ⟨zf, 0, by rw [z]; norm_num⟩
  have zn : Nearest 0 0#32 := ⟨zf, fun u _ => by rw [z, sub_self, abs_zero]; exact abs_nonneg _, fun u _ _ _ => by decide⟩
  have hflt : ∀ x : SXml, ∀ name d, x.attr name = some (f32Fixed v) → x.flt rd name d = .ok 0#32 := by
    intro x name d hx
    obtain ⟨k, hk, hd⟩ := f32Fixed_near hf
    have hk0 : k = 0 := by
      rw [abs_le] at hd
      have a1 : (k : Rat) < 1 := by
        have : (k : Rat) / 10 ^ 6 < 1 / 10 ^ 6 := by
          have := hd.1
          have e : (1 : Rat) / 10 ^ 6 = 1 / (2 * 10 ^ 6) + 1 / (2 * 10 ^ 6) := by norm_num
          rw [e]; linarith
        exact (div_lt_div_iff_of_pos_right (by positivity)).1 this
      have a2 : (-1 : Rat) < k := by
        have : (-1 : Rat) / 10 ^ 6 < (k : Rat) / 10 ^ 6 := by
          have := hd.2
          have e : (-1 : Rat) / 10 ^ 6 = -(1 / (2 * 10 ^ 6)) - 1 / (2 * 10 ^ 6) := by norm_num
          rw [e]; linarith
        exact (div_lt_div_iff_of_pos_right (by positivity)).1 this
      have b1 : k < 1 := by exact_mod_cast a1
      have b2 : -1 < k := by exact_mod_cast a2
      omega
    rw [hk0, Int.cast_zero, zero_div] at hk
    obtain ⟨w, hw, hn, hs⟩ := hrd.flt _ _ (.plain hk) (by rw [abs_zero]; exact f32Max_pos.le)
    have hv : v.msb = false := by
      cases hm : v.msb with
      | false => rfl
      | true =>
        rw [f32Val_eq] at h0
        have : f32Units v ≤ 0 := by unfold f32Units; rw [if_pos hm]; omega
        have : (f32Units v : Rat) ≤ 0 := by exact_mod_cast this
        have := div_nonpos_of_nonpos_of_nonneg this (show (0 : Rat) ≤ 2 ^ 149 by positivity)
        linarith
    have hwm : w.msb = (0#32).msb := by
      have := (f32Fixed_sign hf).trans hs.symm
      rw [hv] at this
      cases hm : w.msb with
      | false => rfl
      | true => exact absurd (this.2 hm) (by decide)
    have e := hn.unique zn hwm
    subst e
    simp only [SXml.flt, hx, hw, (f32Finite_iff _).2 zf, if_true]
  have hl : ∀ tag cs, loadFloat rd (.mk tag ((ScalarType.float ⟨0#32, v⟩).xmlAttrs ++ (lenAttrs 0 ++ declNameAttrs n)) cs) = .ok ⟨0#32, 0#32⟩ := by
    intro tag cs
    unfold loadFloat
    rw [size_of_attr (n := 32) (by simp only [ScalarType.xmlAttrs, List.cons_append, attr_cons]; rfl) (by decide)]
    simp only [Out.bind]
    rw [if_neg (by decide), flt_of_attr hrd zm (by simp only [ScalarType.xmlAttrs, List.cons_append, attr_cons]; rfl)]
    simp only
    rw [hflt _ _ _ (by simp only [ScalarType.xmlAttrs, List.cons_append, attr_cons]; rfl)]
    simp only
    rw [if_neg (by omega)]
  have ht := fun tag cs => scalar_typeAttrs (.float ⟨0#32, v⟩) tag n (len := 0) (by decide) cs
  have hn := fun tag cs => scalar_nameAttr (.float ⟨0#32, v⟩) tag n 0 cs
  have hx : loadElem rd [] .other (Elem.mk n (.scalar (.float ⟨0#32, v⟩)) sy []).structureXml =
      .ok (.mk n (.scalar (.float ⟨0#32, 0#32⟩)) 0 none []) := by
    have e : (Elem.mk n (.scalar (.float ⟨0#32, v⟩)) sy []).structureXml =
        .mk (s "FloatingPointParameter") ((ScalarType.float ⟨0#32, v⟩).xmlAttrs ++ (lenAttrs 0 ++ declNameAttrs n)) [] := rfl
    rw [e]
    generalize (ScalarType.float ⟨0#32, v⟩).xmlAttrs ++ (lenAttrs 0 ++ declNameAttrs n) = A at *
    unfold loadElem
    simp (decide := true) only [if_true, if_false, ht, hn, Out.bind, noChildren, hl]
  refine ⟨.mk name (.group (s "Subsystem")) [] [.mk n (.scalar (.float ⟨0#32, 0#32⟩)) [] []], ?_, rfl⟩
  rw [loadInstances_declaring, loadElems, hx]
  rfl

/-- A ten-millionth is such a bound, and there are readers of decimal numbers. -/
example : F32Finite 0x33d6bf95#32 ∧ 0 < f32Val 0x33d6bf95#32 ∧ f32Val 0x33d6bf95#32 < 1 / (2 * 10 ^ 6) ∧ ∃ rd, ReadsDecimals rd :=
  ⟨by decide, by norm_num [f32Val], by norm_num [f32Val], ReadsDecimals.exists⟩

namespace SampleDoc

/-- A component with a block, parameters of several types and a text. -/
def exported : Elem := .mk (s "left") (.group (s "ComponentInstance")) (some 4)
  [.mk (s "band") (.group (s "ParameterBlock")) none
    [.mk (s "q") (.scalar (.fixed ⟨2, 3, 4⟩)) (some 2) [],
     .mk (s "shape") (.scalar (.enum ⟨1, [(s "low", -1#32), (s "high", 1#32)]⟩)) none [],
     .mk (s "gain") (.array ⟨.int ⟨true, 1, -20, 20⟩, 3⟩) none []],
   .mk (s "label") (.string 12) none [],
   .mk (s "temp") (.scalar (.float ⟨0xbf000000#32, 0x7f7fffff#32⟩)) none []]

theorem exported_wf : exported.WF := by
  refine .group ?_ ?_
  · intro c hc
    simp only [List.mem_cons, List.not_mem_nil, or_false] at hc
    rcases hc with rfl | rfl | rfl
    · refine .group ?_ ?_
      · intro c hc
        simp only [List.mem_cons, List.not_mem_nil, or_false] at hc
        rcases hc with rfl | rfl | rfl
        · exact .scalar (.inr (.inl rfl))
        · exact .scalar (.inl rfl)
        · exact .array (.inl rfl)
      · intro c hc t
        simp only [List.mem_cons, List.not_mem_nil, or_false] at hc
        rcases hc with rfl | rfl | rfl <;> simp [Elem.kind]
    · exact .string
    · exact .scalar (.inr (.inr rfl))
  · intro c hc t
    simp only [List.mem_cons, List.not_mem_nil, or_false] at hc
    rcases hc with rfl | rfl | rfl <;> simp [Elem.kind]

theorem exported_floats : Millionths 0xbf000000#32 ∧ Millionths 0x7f7fffff#32 :=
  ⟨⟨by decide, -500000, by norm_num [f32Val]⟩, ⟨by decide, (2 ^ 24 - 1) * 2 ^ 104 * 10 ^ 6, by norm_num [f32Val]⟩⟩

/-- The elements of the sample. -/
theorem exported_at {p : Pos} {e : Elem} (h : exported.at? p = some e) :
    e.kind ∈ [.group (s "ComponentInstance"), .group (s "ParameterBlock"), .scalar (.fixed ⟨2, 3, 4⟩),
      .scalar (.enum ⟨1, [(s "low", -1#32), (s "high", 1#32)]⟩), .array ⟨.int ⟨true, 1, -20, 20⟩, 3⟩, .string 12,
      .scalar (.float ⟨0xbf000000#32, 0x7f7fffff#32⟩)] := by
  match p, h with
  | [], h => simp only [Elem.at?, Option.some.injEq] at h; subst h; decide
  | [0], h => simp only [exported, Elem.at?_single, Elem.children] at h; simp at h; subst h; decide
  | [1], h => simp only [exported, Elem.at?_single, Elem.children] at h; simp at h; subst h; decide
  | [2], h => simp only [exported, Elem.at?_single, Elem.children] at h; simp at h; subst h; decide
  | [0, 0], h => simp [exported, Elem.at?_cons, Elem.children, Elem.at?] at h; subst h; decide
  | [0, 1], h => simp [exported, Elem.at?_cons, Elem.children, Elem.at?] at h; subst h; decide
  | [0, 2], h => simp [exported, Elem.at?_cons, Elem.children, Elem.at?] at h; subst h; decide
  | 0 :: 0 :: _ :: _, h => simp [exported, Elem.at?_cons, Elem.children] at h
  | 0 :: 1 :: _ :: _, h => simp [exported, Elem.at?_cons, Elem.children] at h
  | 0 :: 2 :: _ :: _, h => simp [exported, Elem.at?_cons, Elem.children] at h
  | 0 :: (_ + 3) :: _, h => simp [exported, Elem.at?_cons, Elem.children] at h
  | 1 :: _ :: _, h => simp [exported, Elem.at?_cons, Elem.children] at h
  | 2 :: _ :: _, h => simp [exported, Elem.at?_cons, Elem.children] at h
  | (_ + 3) :: _, h => simp [exported, Elem.at?_cons, Elem.children] at h

theorem exported_exportable {p : Pos} {e : Elem} (h : exported.at? p = some e) : Exportable e.kind := by
  have := exported_at h
  simp only [List.mem_cons, List.not_mem_nil, or_false] at this
  rcases this with h | h | h | h | h | h | h <;> rw [h]
  · exact .inr rfl
  · exact .inl rfl
  · intro f hf; cases hf
  · intro f hf; cases hf
  · exact ⟨by decide, fun f hf => by cases hf⟩
  · exact (by decide : 12 < 2 ^ 64)
  · intro f hf; cases hf; exact exported_floats

theorem exported_types : TypesOk exported := by
  intro p e t h ht
  have := exported_at h
  simp only [List.mem_cons, List.not_mem_nil, or_false] at this
  rcases this with h | h | h | h | h | h | h <;> rw [h] at ht
  · rcases ht with ht | ⟨m, ht⟩ <;> cases ht
  · rcases ht with ht | ⟨m, ht⟩ <;> cases ht
  · rcases ht with ht | ⟨m, ht⟩ <;> cases ht
    exact ⟨.inr (.inl rfl), by decide⟩
  · rcases ht with ht | ⟨m, ht⟩ <;> cases ht
    exact .inl rfl
  · rcases ht with ht | ⟨m, ht⟩ <;> cases ht
    exact ⟨.inl rfl, by decide, by decide, by decide⟩
  · rcases ht with ht | ⟨m, ht⟩ <;> cases ht
  · rcases ht with ht | ⟨m, ht⟩ <;> cases ht
    exact ⟨by decide, by decide, by norm_num [f32Val]⟩

end SampleDoc

/-- The sample meets the hypotheses: its export gives it back. -/
example : ∃ rd i, loadInstances rd 1 (declaring (s "amp") (s "Virtual") [SampleDoc.exported.structureXml]) = some (.ok i) ∧
    i.elem = .mk (s "amp") (.group (s "Subsystem")) none [plain SampleDoc.exported] := by
  obtain ⟨rd, hrd⟩ := ReadsDecimals.exists
  obtain ⟨i, h⟩ := C78_reload_partial hrd (els := [SampleDoc.exported]) (fun el hel => by
    rw [List.mem_singleton] at hel
    subst hel
    exact ⟨SampleDoc.exported_wf, fun p e h => SampleDoc.exported_exportable h, SampleDoc.exported_types⟩) 1 (s "amp") (s "Virtual")
  exact ⟨rd, i, h⟩

/-- The export of one of its parameters. -/
example : ∃ x, NodeIn SampleDoc.exported.structureXml [0, 2] x ∧ x.nameAttr = s "gain" ∧
    NumAttr x (s "ArrayLength") 0 3 ∧ NumAttr x (s "Min") (-128) (-20) := by
  obtain ⟨x, h1, h2, ⟨h3, h4⟩, -⟩ := C78_describes SampleDoc.exported_wf SampleDoc.exported_types (p := [0, 2])
    (e := .mk (s "gain") (.array ⟨.int ⟨true, 1, -20, 20⟩, 3⟩) none []) rfl
  refine ⟨x, h1, h2, h4, ?_⟩
  cases h3 SampleDoc.reader with
  | int _ _ _ _ h => exact h

end PF
