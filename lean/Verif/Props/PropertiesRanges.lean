import Verif.Spec.AdaptationShown
import Verif.Props.Properties
import Verif.Props.FixedPoint
import Verif.Props.FloatingPoint

/-!
# The ranges shown of real parameters (C100)
-/

namespace PF
open Spec

/-- C100: the notation shown of a fixed-point parameter gives the numbers that `setParameter` takes in real value space:
`Qn.m` stands for `-2^n` to `2^n - 2^-m`.  A text that the stream library reads as no number, or a hexadecimal one, is
refused. -/
theorem C100_fixed_notation {root : Elem} (wf : root.WF) (docs : Pos → ElemTexts) {path : Str} {p : Pos} {e : Elem}
    {t : FixedType} (hl : root.locate path = some p) (he : root.at? p = some e) (hk : e.kind = .scalar (.fixed t))
    (rd : Reader) (hex : Bool) {b : Board} (hb : b.length = root.footprint) :
    ∃ before n m, root.showProperties docs path = .ok (Lines (before ++ [s "Notation: Q" ++ natText n ++ s "." ++ natText m])) ∧
      ∀ text, (root.setText rd ⟨false, hex⟩ 0 b path text).1 = .ok () ↔
        (∀ ds, text ≠ '0' :: 'x' :: ds ∧ text ≠ '0' :: 'X' :: ds) ∧
          ∃ d, rd.dbl text = some d ∧ -(2 : Rat) ^ n ≤ d.val ∧ d.val ≤ 2 ^ n - 1 / 2 ^ m := by
  obtain ⟨ls, h1, h2⟩ := C100_properties docs hl he
  rw [hk] at h1
  obtain ⟨vs, rfl, rfl⟩ := h1
  refine ⟨Heading e.kind.text (docs p) e.footprint ++ (Labelled (s "Unit: ") (docs p).unit ++
    [s "Scalar size: " ++ natText (ScalarType.fixed t).size ++ s " byte(s) "]), t.integral, t.fractional, ?_, fun text => ?_⟩
  · rw [h2]; simp only [List.append_assoc]
  rw [setText_scalar_ok wf hl he hk rd _ hb, ← isHexadecimal_false]
  simp only [ScalarType.fromText, FixedType.fromText]
  have hreal : ∀ d : Dbl, t.inRange d = true ↔ -(2 : Rat) ^ t.integral ≤ d.val ∧ d.val ≤ 2 ^ t.integral - 1 / 2 ^ t.fractional := by
    intro d
    rw [t.inRange_iff d]
    unfold FixedType.Real
    push_cast
    rfl
  cases hx : isHexadecimal text with
  | true => simp
  | false =>
    cases hd : rd.dbl text with
    | none => simp
    | some d =>
      simp only [Bool.false_and, Bool.false_eq_true, if_false, FixedType.fromDbl, Option.some.injEq, true_and, exists_eq_left',
        ← hreal]
      by_cases h : t.inRange d = true <;> simp [h]

/-- C100: the bounds shown of a floating-point parameter are, within half a millionth, the ones that `setParameter` obeys in
real value space. -/
theorem C100_float_bounds {root : Elem} (wf : root.WF) (docs : Pos → ElemTexts) {path : Str} {p : Pos} {e : Elem}
    {t : FloatType} (hl : root.locate path = some p) (he : root.at? p = some e) (hk : e.kind = .scalar (.float t)) (ht : FloatWF t)
    (rd : Reader) (hex : Bool) {b : Board} (hb : b.length = root.footprint) :
    ∃ before lo hi x y, root.showProperties docs path = .ok (Lines (before ++ [s "Min:" ++ lo, s "Max:" ++ hi])) ∧
      ShowsNear lo x ∧ ShowsNear hi y ∧
      ∀ text, (root.setText rd ⟨false, hex⟩ 0 b path text).1 = .ok () ↔
        (∀ ds, text ≠ '0' :: 'x' :: ds ∧ text ≠ '0' :: 'X' :: ds) ∧
          ∃ v, rd.flt text = some v ∧ F32Finite v ∧ x ≤ f32Val v ∧ f32Val v ≤ y := by
  obtain ⟨ls, h1, h2⟩ := C100_properties docs hl he
  rw [hk] at h1
  obtain ⟨vs, rfl, rfl⟩ := h1
  refine ⟨Heading e.kind.text (docs p) e.footprint ++ (Labelled (s "Unit: ") (docs p).unit ++
    [s "Scalar size: " ++ natText (ScalarType.float t).size ++ s " byte(s) "]), f32Fixed t.min, f32Fixed t.max,
    f32Val t.min, f32Val t.max, ?_, f32Fixed_near ht.min, f32Fixed_near ht.max, fun text => ?_⟩
  · rw [h2]; simp only [List.append_assoc]
  rw [setText_scalar_ok wf hl he hk rd _ hb, ← isHexadecimal_false]
  simp only [ScalarType.fromText]
  constructor
  · rintro ⟨v, hv⟩
    obtain ⟨g1, g2, g3⟩ := (t.fromText_real rd hex text v).1 hv
    exact ⟨g1, v, g2, g3.1, g3.2.1, g3.2.2⟩
  · rintro ⟨g1, v, g2, g3⟩
    exact ⟨v, (t.fromText_real rd hex text v).2 ⟨g1, g2, g3.1, g3.2.1, g3.2.2⟩⟩

/-- C100: the length shown of an array is the greatest number of values that `setParameter` takes, when an element
takes each of them. -/
theorem C100_array_length {root : Elem} (wf : root.WF) (docs : Pos → ElemTexts) {path : Str} {p : Pos} {e : Elem}
    {t : ArrayType} (hl : root.locate path = some p) (he : root.at? p = some e) (hk : e.kind = .array t) (rd : Reader) (ctx : Ctx)
    {b : Board} (hb : b.length = root.footprint) :
    ∃ before n, root.showProperties docs path = .ok (Lines (before ++ [s "Array length: " ++ natText n])) ∧
      ∀ text toks, ArrayValues text toks → (∀ tok ∈ toks, ∃ v, t.elem.fromText rd ctx tok = some v) →
        ((root.setText rd ctx 0 b path text).1 = .ok () ↔ toks.length ≤ n) := by
  obtain ⟨ls, h1, h2⟩ := C100_properties docs hl he
  rw [hk] at h1
  obtain ⟨vs, -, rfl⟩ := h1
  refine ⟨Heading e.kind.text (docs p) e.footprint ++ (Labelled (s "Unit: ") (docs p).unit ++
    [s "Scalar size: " ++ natText t.elem.size ++ s " byte(s) "] ++ vs), t.length, ?_, fun text toks htoks hacc => ?_⟩
  · rw [h2]; simp only [List.append_assoc]
  obtain ⟨o, ho⟩ := Elem.offset_of_at (off := 0) he
  have ha := wf.access_of_locate hl he (by rw [hk]; rfl)
  have hroom : o + t.length * t.elem.size ≤ b.length := by
    have := wf.area_main he ho
    have e1 : e.areaSize = t.length * t.elem.size := by
      obtain ⟨n, k, sy, xs⟩ := e
      simp only [Elem.kind] at hk
      subst hk
      simp [Elem.areaSize, Elem.kind, Elem.footprint, EKind.ownSize, ArrayType.footprint, Nat.mul_comm]
    omega
  have hs : root.setText rd ctx 0 b path text = setArrayText rd t ctx b 0 o text := by
    simp [Elem.setText, ha, he, ho, hk, setParamText, arrayAccessSet, arrayIndex]
  rw [hs]
  by_cases hle : toks.length ≤ t.length
  · obtain ⟨b', hb', -⟩ := C40_set_values rd t ctx b 0 o hroom text toks htoks (by omega) hacc
    simp [hb', hle]
  · rw [C40_too_many_refused rd t ctx b 0 o text toks htoks (by omega)]
    simp [hle]

namespace Sample

/-- A structure with a fixed-point and a floating-point parameter and an array. -/
def gains : Elem :=
  .mk (s "Sys") (.group (s "SystemClass")) none [.mk (s "sub") (.group (s "Subsystem")) none [
    .mk (s "q") (.scalar (.fixed ⟨2, 3, 4⟩)) none [],
    .mk (s "f") (.scalar (.float sampleFloat)) none [],
    .mk (s "v") (.array ⟨.int ⟨false, 1, 0, 9⟩, 3⟩) none []]]

theorem gains_wf : gains.WF := by
  refine .group ?_ (by simp [Elem.kind])
  intro c hc
  simp only [List.mem_singleton] at hc
  subst hc
  refine .group ?_ (by simp [Elem.kind])
  intro c hc
  simp only [List.mem_cons, List.not_mem_nil, or_false] at hc
  rcases hc with rfl | rfl | rfl
  · exact .scalar (.inr (.inl rfl))
  · exact .scalar (.inr (.inr rfl))
  · exact .array (.inl rfl)

/-- A reader of some numbers. -/
def gainReader : Reader := ⟨fun t => if t = s "7.5" then some ⟨15, 1⟩ else if t = s "8" then some ⟨8, 0⟩ else none,
  fun t => if t = s "0.5" then some 0x3f000000#32 else if t = s "2" then some 0x40000000#32 else none⟩

example : gains.WF ∧ FloatWF sampleFloat ∧ gains.locate (s "/Sys/sub/f") = some [0, 1] ∧
    gains.mainBoard.length = gains.footprint ∧
    gains.showProperties docs (s "/Sys/sub/q") = .ok (s
      "Kind: FixedPointParameter\nTotal size: 2 byte(s)\nScalar size: 2 byte(s) \nNotation: Q3.4\n") ∧
    (gains.setText gainReader ⟨false, false⟩ 0 gains.mainBoard (s "/Sys/sub/q") (s "7.5")).1 = .ok () ∧
    (gains.setText gainReader ⟨false, false⟩ 0 gains.mainBoard (s "/Sys/sub/q") (s "8")).1 = .err ∧
    gains.showProperties (fun _ => ⟨[], [], [], none⟩) (s "/Sys/sub/f") = .ok (s
      "Kind: FloatingPointParameter\nTotal size: 4 byte(s)\nScalar size: 4 byte(s) \nMin:-1.000000\nMax:1.000000\n") ∧
    (gains.setText gainReader ⟨false, false⟩ 0 gains.mainBoard (s "/Sys/sub/f") (s "0.5")).1 = .ok () ∧
    (gains.setText gainReader ⟨false, false⟩ 0 gains.mainBoard (s "/Sys/sub/f") (s "2")).1 = .err ∧
    gains.showProperties (fun _ => ⟨[], [], [], none⟩) (s "/Sys/sub/v") = .ok (s
      "Kind: IntegerParameter\nTotal size: 3 byte(s)\nScalar size: 1 byte(s) \nSigned: no\nMin: \x00\nMax: \t\nArray length: 3\n") ∧
    (gains.setText gainReader ⟨false, false⟩ 0 gains.mainBoard (s "/Sys/sub/v") (s "1 2 3")).1 = .ok () ∧
    (gains.setText gainReader ⟨false, false⟩ 0 gains.mainBoard (s "/Sys/sub/v") (s "1 2 3 4")).1 = .err :=
  ⟨gains_wf, sampleFloat_wf, by decide +kernel, by decide +kernel, by decide +kernel, by decide +kernel, by decide +kernel,
    by decide +kernel, by decide +kernel, by decide +kernel, by decide +kernel, by decide +kernel, by decide +kernel⟩

end Sample

end PF
